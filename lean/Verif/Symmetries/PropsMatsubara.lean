import Verif.Symmetries.PropsTables
import Verif.Symmetries.PropsEnforce

/-! C36 for imaginary frequencies; C38: which entries are accessed and which are set to zero. -/
namespace Verif.Symmetries
open Verif.Freqs (Ch Fr)

/-- C36 for imaginary frequencies: the transformation listed for a class and spin component leads to the stored
spin component, from `K2b` to `K2` with the left and right sides exchanged, and the fermionic frequency on which
the stored function depends is the one of the requested function up to sign. -/
theorem c36_transformation_matsubara {K : Type} [CommRing K] (cfg : Cfg) (hk : cfg.keldysh = false) (c : Ch)
    (k : KClass) (x : Ind K) (hc : x.ch = c) (hs : x.spin < 2) :
    ∃ i y, compTransfM c k x.spin = some i ∧ Ti cfg (fun _ => 0) i x = .ok y ∧ y.spin = 0 ∧
      (k ≠ .k1 → y.asym = xor x.asym (decide (k = .k2b))) ∧
      (k ≠ .k1 → y.f.v1 = (if k = .k2b then x.f.v2 else x.f.v1) ∨
        y.f.v1 = -(if k = .k2b then x.f.v2 else x.f.v1)) ∧
      (y.f.w = x.f.w ∨ y.f.w = -x.f.w) := by
  have hs' : x.spin = 0 ∨ x.spin = 1 := by omega
  rcases x with ⟨iK, s, ⟨w, v1, v2⟩, c', p, cj, as⟩
  simp only at hc hs hs'
  subst hc
  rcases hs' with rfl | rfl <;> cases k <;> cases c' <;>
    refine ⟨_, _, rfl, rfl, ?_⟩ <;> simp [T3, T1, T2, TC, hk, switchChannel]

section
variable {K R : Type} [Field K] [LinearOrder K] [CommRing R] [StarRing R] [Algebra K R]

/-- C38: the interpolated value is determined by the entries listed as accessed. -/
theorem c38_reads (cls : Cls) (g : Grids K) (y : Ind K) (s s' : Key → R)
    (h : ∀ k ∈ corners cls g y, s k = s' k) : interp cls g s y = interp cls g s' y := by
  cases cls
  · simp only [corners, List.map_cons, List.map_nil, List.mem_cons, List.not_mem_nil, or_false] at h
    simp only [interp, interp1]
    rw [h _ (.inl rfl), h _ (.inr rfl)]
  · simp only [corners, List.map_cons, List.map_nil, List.flatMap_cons, List.flatMap_nil, List.cons_append,
      List.nil_append, List.append_nil, List.mem_cons, List.not_mem_nil, or_false] at h
    simp only [interp, interp1]
    rw [h _ (.inl rfl), h _ (.inr (.inl rfl)), h _ (.inr (.inr (.inl rfl))), h _ (.inr (.inr (.inr rfl)))]
  · simp only [corners, List.map_cons, List.map_nil, List.flatMap_cons, List.flatMap_nil, List.cons_append,
      List.nil_append, List.append_nil, List.mem_cons, List.not_mem_nil, or_false] at h
    simp only [interp, interp1]
    rw [h _ (.inl rfl), h _ (.inr (.inl rfl)), h _ (.inr (.inr (.inl rfl))), h _ (.inr (.inr (.inr (.inl rfl)))),
      h _ (.inr (.inr (.inr (.inr (.inl rfl))))), h _ (.inr (.inr (.inr (.inr (.inr (.inl rfl)))))),
      h _ (.inr (.inr (.inr (.inr (.inr (.inr (.inl rfl))))))),
      h _ (.inr (.inr (.inr (.inr (.inr (.inr (.inr rfl)))))))]

/-- C38: two, four or eight distinct entries are accessed. -/
theorem c38_reads_all (cls : Cls) (g : Grids K) (y : Ind K) :
    (corners cls g y).length = (match cls with | .k1 => 2 | .k2 => 4 | .k3 => 8) ∧ (corners cls g y).Nodup := by
  cases cls <;> simp [corners]

/-- C38: an entry is set to zero exactly if real frequencies are used and the component is excluded by
causality. -/
theorem c38_zero (cls : Cls) (cfg : Cfg) (c : Ch) (y : Ind K) (hs : y.spin < 2) (h16 : y.iK < 16) :
    vanishing cls cfg c y = true ↔ cfg.keldysh = true ∧ vanishes c cls.kclass y.iK = true := by
  have hneg : ∀ (c : Ch) (k : KClass), ∀ s < 2, ∀ iK < 16,
      ((component c k s iK).any (· < 0) = true ↔ component c k s iK = some (-1)) := by decide +kernel
  simp only [vanishing, Bool.and_eq_true]
  rw [hneg c cls.kclass _ hs _ h16, c36_vanishing c cls.kclass _ hs _ h16]

end

example : vanishing (K := ℚ) .k1 ⟨true, true, false⟩ .a ⟨0, 0, ⟨1, 0, 0⟩, .a, 1, false, false⟩ = true ∧
    vanishing (K := ℚ) .k1 ⟨true, true, false⟩ .a ⟨1, 0, ⟨1, 0, 0⟩, .a, 1, false, false⟩ = false := by decide +kernel

end Verif.Symmetries
