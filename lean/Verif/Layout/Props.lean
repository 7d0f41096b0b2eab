import Verif.Layout.Lemmas
import Verif.Keldysh.Props
import Mathlib.Tactic.IntervalCases

/-! C128: every entry of the result vertex holds the integral with the indices of that entry. -/
namespace Verif.Layout
open Verif Verif.Index

variable {α : Type}

theorem storeKeldysh_spec [Zero α] (ch : Keldysh.Ch) (M : Nat → Nat → α) :
    ∃ l, storeKeldysh ch 16 M = .ok l ∧ l.length = 16 ∧
      ∀ i < 4, ∀ j < 4, l[Keldysh.rotate ch true (i * 4 + j)]? = some (M i j) := by
  have mem : ∀ w : ℤ × α, w ∈ ((List.range 4).flatMap fun i => (List.range 4).map fun j =>
      (((Keldysh.rotate ch true (i * 4 + j) : Nat) : ℤ), M i j)) ↔
      ∃ i < 4, ∃ j < 4, w = (((Keldysh.rotate ch true (i * 4 + j) : Nat) : ℤ), M i j) := by
    intro w
    simp only [List.mem_flatMap, List.mem_map, List.mem_range, eq_comm]
  obtain ⟨l, e, hlen, hin, _⟩ := puts_spec ((List.range 4).flatMap fun i => (List.range 4).map fun j =>
      (((Keldysh.rotate ch true (i * 4 + j) : Nat) : ℤ), M i j)) (List.replicate 16 0) (by
    intro w hw
    obtain ⟨i, hi, j, hj, rfl⟩ := (mem w).1 hw
    have := (Keldysh.c32_inverse ch true (i * 4 + j) (by omega)).2.2.1
    simp only [List.length_replicate]; omega) (by
    intro w hw w' hw' he
    obtain ⟨i, hi, j, hj, rfl⟩ := (mem w).1 hw
    obtain ⟨i', hi', j', hj', rfl⟩ := (mem w').1 hw'
    have := Keldysh.c32_injective ch true (k := i * 4 + j) (l := i' * 4 + j') (by omega) (by omega)
      (by dsimp only at he; omega)
    obtain rfl : i = i' := by omega
    obtain rfl : j = j' := by omega
    rfl)
  refine ⟨l, e, by rw [hlen]; simp, ?_⟩
  intro i hi j hj
  have := hin _ ((mem _).2 ⟨i, hi, j, hj, rfl⟩)
  simpa using this

/-- C128, real frequencies: for every class, every shape, every number of nodes, processes and every thread
schedule, the entry with spin `s`, frequencies `iw`, `iv`, `ivp` and Keldysh index `iK` holds the integral `F` of
exactly these indices. `hM` says which integral the matrix entry is (C33). -/
theorem c128_keldysh [Zero α] (cls : Cls) (ch : Keldysh.Ch) (ns nw nv nvp : Nat)
    (need : List Nat → Bool) (M : List Nat → Nat → Nat → α) (F : List Nat → α)
    (hM : ∀ s iw iv ivp, ∀ i < 4, ∀ j < 4, M (shape cls s iw iv ivp 0 0) i j =
      F (shape cls s iw iv ivp (Keldysh.rotate ch true (4 * i + j)) 0))
    {ws nodes : Nat} {small : α → Bool} {sched : Nat → Nat → List (Nat × Nat)}
    (hws : 0 < ws) (hn : 0 < nodes) (hsm : small 0 = true)
    (hs : Mpi.ValidSchedule ⟨ws, nodes, numElems (shape cls ns nw nv nvp 1 1), 16⟩
      ((numElems (shape cls ns nw nv nvp 1 1) + nodes - 1) / nodes) sched) :
    ∃ out, run .keldysh cls (shape cls ns nw nv nvp 16 1) need (fun nvec idx => storeKeldysh ch nvec (M idx))
        ws nodes small sched = .ok out ∧
      out.length = numElems (shape cls ns nw nv nvp 16 1) ∧
      ∀ s < ns, ∀ iw < nw, ∀ iv < nv, ∀ ivp < nvp, ∀ iK < 16,
        out[rowMajor (shape cls s iw iv ivp iK 0) (shape cls ns nw nv nvp 16 1)]? =
          some (if need (shape cls s iw iv ivp 0 0) then F (shape cls s iw iv ivp iK 0) else 0) := by
  choose vals hv1 hv2 hv3 using fun idx => storeKeldysh_spec ch (M idx)
  have fin : ∀ s iw iv ivp iK, iK < 16 → (vals (shape cls s iw iv ivp 0 0))[iK]? =
      some (F (shape cls s iw iv ivp iK 0)) := by
    intro s iw iv ivp iK hK
    obtain ⟨_, h2, _, h4⟩ := Keldysh.c32_inverse ch true iK hK
    have := hv3 (shape cls s iw iv ivp 0 0) (Keldysh.unrotate ch true iK / 4) (by omega)
      (Keldysh.unrotate ch true iK % 4) (by omega)
    rw [hM _ _ _ _ _ (by omega) _ (by omega), Nat.div_add_mod, Nat.mul_comm, Nat.div_add_mod, h2] at this
    exact this
  have range1 : ∀ iK < 16, InRange [iK] [16] := fun iK h => List.Forall₂.cons h List.Forall₂.nil
  have hpr : (shape cls ns nw nv nvp 1 1).prod = numElems (shape cls ns nw nv nvp 1 1) := rfl
  cases cls
  case k1 =>
    have hp : numElems (shape .k1 ns nw nv nvp 1 1) = [ns, nw].prod := by simp [numElems, shape]
    rw [hp] at hs
    obtain ⟨out, e, hl, h⟩ := run_entry (mode := .keldysh) (cls := .k1) [ns, nw] [16] 1 (by simp) rfl
      (need := need) (store := fun nvec idx => storeKeldysh ch nvec (M idx)) (fun o => vals (o ++ [0] ++ [0]))
      (fun o _ _ => ⟨hv1 _, hv2 _⟩) hws hn hsm hs
    refine ⟨out, e, hl, ?_⟩
    intro s hs iw hw iv hv ivp hvp iK hK
    have := h [s, iw] [iK] (.cons hs (.cons hw .nil)) (range1 iK hK)
    have e0 : rowMajor [iK] [16] = iK := by simp [rowMajor]
    rw [e0] at this
    refine this.trans ?_
    have := fin s iw iv ivp iK hK
    show (if need (shape .k1 s iw iv ivp 0 0) then (vals (shape .k1 s iw iv ivp 0 0))[iK]? else _) = _
    rw [this]; split <;> rfl
  case k2 =>
    have hp : numElems (shape .k2 ns nw nv nvp 1 1) = [ns, nw, nv].prod := by simp [numElems, shape]
    rw [hp] at hs
    obtain ⟨out, e, hl, h⟩ := run_entry (mode := .keldysh) (cls := .k2) [ns, nw, nv] [16] 1 (by simp) rfl
      (need := need) (store := fun nvec idx => storeKeldysh ch nvec (M idx)) (fun o => vals (o ++ [0] ++ [0]))
      (fun o _ _ => ⟨hv1 _, hv2 _⟩) hws hn hsm hs
    refine ⟨out, e, hl, ?_⟩
    intro s hs iw hw iv hv ivp hvp iK hK
    have := h [s, iw, iv] [iK] (.cons hs (.cons hw (.cons hv .nil))) (range1 iK hK)
    have e0 : rowMajor [iK] [16] = iK := by simp [rowMajor]
    rw [e0] at this
    refine this.trans ?_
    have := fin s iw iv ivp iK hK
    show (if need (shape .k2 s iw iv ivp 0 0) then (vals (shape .k2 s iw iv ivp 0 0))[iK]? else _) = _
    rw [this]; split <;> rfl
  case k2b =>
    have hp : numElems (shape .k2b ns nw nv nvp 1 1) = [ns, nw, nvp].prod := by simp [numElems, shape]
    rw [hp] at hs
    obtain ⟨out, e, hl, h⟩ := run_entry (mode := .keldysh) (cls := .k2b) [ns, nw, nvp] [16] 1 (by simp) rfl
      (need := need) (store := fun nvec idx => storeKeldysh ch nvec (M idx)) (fun o => vals (o ++ [0] ++ [0]))
      (fun o _ _ => ⟨hv1 _, hv2 _⟩) hws hn hsm hs
    refine ⟨out, e, hl, ?_⟩
    intro s hs iw hw iv hv ivp hvp iK hK
    have := h [s, iw, ivp] [iK] (.cons hs (.cons hw (.cons hvp .nil))) (range1 iK hK)
    have e0 : rowMajor [iK] [16] = iK := by simp [rowMajor]
    rw [e0] at this
    refine this.trans ?_
    have := fin s iw iv ivp iK hK
    show (if need (shape .k2b s iw iv ivp 0 0) then (vals (shape .k2b s iw iv ivp 0 0))[iK]? else _) = _
    rw [this]; split <;> rfl
  case k3 =>
    have hp : numElems (shape .k3 ns nw nv nvp 1 1) = [ns, nw, nv, nvp].prod := by simp [numElems, shape]
    rw [hp] at hs
    obtain ⟨out, e, hl, h⟩ := run_entry (mode := .keldysh) (cls := .k3) [ns, nw, nv, nvp] [16] 1 (by simp) rfl
      (need := need) (store := fun nvec idx => storeKeldysh ch nvec (M idx)) (fun o => vals (o ++ [0] ++ [0]))
      (fun o _ _ => ⟨hv1 _, hv2 _⟩) hws hn hsm hs
    refine ⟨out, e, hl, ?_⟩
    intro s hs iw hw iv hv ivp hvp iK hK
    have := h [s, iw, iv, ivp] [iK] (.cons hs (.cons hw (.cons hv (.cons hvp .nil)))) (range1 iK hK)
    have e0 : rowMajor [iK] [16] = iK := by simp [rowMajor]
    rw [e0] at this
    refine this.trans ?_
    have := fin s iw iv ivp iK hK
    show (if need (shape .k3 s iw iv ivp 0 0) then (vals (shape .k3 s iw iv ivp 0 0))[iK]? else _) = _
    rw [this]; split <;> rfl

/-- The hypotheses can be met: two nodes, three processes, program order. -/
example : ∃ (F : List Nat → Nat) (M : List Nat → Nat → Nat → Nat),
    (∀ s iw iv ivp, ∀ i < 4, ∀ j < 4, M (shape .k3 s iw iv ivp 0 0) i j =
      F (shape .k3 s iw iv ivp (Keldysh.rotate .t true (4 * i + j)) 0)) ∧
    F (shape .k3 0 0 0 0 1 0) ≠ F (shape .k3 0 0 0 0 2 0) ∧
    Mpi.ValidSchedule ⟨3, 2, numElems (shape .k3 2 3 4 4 1 1), 16⟩
      ((numElems (shape .k3 2 3 4 4 1 1) + 2 - 1) / 2)
      (fun _ i => Mpi.writeEvents ⟨3, 2, numElems (shape .k3 2 3 4 4 1 1), 16⟩
        ((numElems (shape .k3 2 3 4 4 1 1) + 2 - 1) / 2) i) :=
  ⟨fun idx => idx.getD 4 0, fun _ i j => Keldysh.rotate .t true (4 * i + j), fun _ _ _ _ _ _ _ _ => rfl,
    by decide, fun _ _ => List.Perm.refl _⟩

/-- C128 needs a single internal index: with two of them the Keldysh components and the internal index get mixed
up, here component 2 is stored as component 1. -/
theorem c128_internal_refuted :
    ∃ out, run .keldysh .k1 (shape .k1 1 1 0 0 16 2) (fun _ => true)
        (fun nvec idx => storeKeldysh .p nvec (fun i j => 100 * idx.getD 3 0 + (4 * i + j))) 1 1 (fun x => x == 0)
        (fun _ i => Mpi.writeEvents ⟨1, 1, 2, 16⟩ 2 i) = .ok out ∧
      out[rowMajor (shape .k1 0 0 0 0 1 0) (shape .k1 1 1 0 0 16 2)]? = some 2 := by
  refine ⟨(List.range 16) ++ (List.range 16).map (100 + ·), by decide +kernel, by decide +kernel⟩

end Verif.Layout
