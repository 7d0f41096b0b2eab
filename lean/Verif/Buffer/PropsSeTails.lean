import Verif.Buffer.SeTails
import Verif.Buffer.PropsShrink

/-! # C183: the report on the tails of the self-energy -/
namespace Verif.Buffer
open Verif Verif.Index Verif.Collapse

/-- The moduli are the same at mirrored frequencies: for each point there is one at the mirrored frequency with the same modulus. -/
def Mirrored {α : Type} [Zero α] (absf : α → ℚ) (data : List α) (dims : List Nat) (n : Nat) : Prop :=
  ∀ m, InRange m dims → ∃ m', InRange m' dims ∧ m'.getD 1 0 = n - 1 - m.getD 1 0 ∧ absf (elemAt data dims m') = absf (elemAt data dims m)

section
variable {α : Type} [Zero α] (absf : α → ℚ) (emb : ℚ → α) (hemb : ∀ q, 0 ≤ q → absf (emb q) = q) (hnn : ∀ x, 0 ≤ absf x)
  (data : List α) (dims order : List Nat) (hi : 1 < dims.length) (hpos : 0 < numElems dims) (hdata : data.length = numElems dims)
  (hord : order.Perm (List.range dims[1])) (hn : 0 < dims[1])
include hemb hnn hi hpos hdata hord hn

/-- **C183** (first frequency). The number reported for the self-energy is the largest modulus at the first frequency divided by the largest
modulus of all data; it is not a number exactly if all data vanish; it does not depend on the schedule of the threads. -/
theorem c183_first_partial :
    ∃ T q, IsGreatest {x | ∃ y ∈ data, x = absf y} T ∧
      IsGreatest {x | ∃ m, InRange m dims ∧ m.getD 1 0 = 0 ∧ x = absf (elemAt data dims m)} q ∧
      seTails absf emb data dims order = .ok (if T = 0 then none else some (q / T)) ∧ (T = 0 ↔ ∀ y ∈ data, absf y = 0) := by
  obtain ⟨out, h1, h2, h3⟩ := c44_maxabs absf emb hemb hnn data dims 1 order hi hpos hdata hord
  obtain ⟨q, hq, hq1, m, hm1, hm2, hm3⟩ := h3 0 hn
  obtain ⟨T, q', gT, -, ha, hz, -⟩ := c123_share absf emb hemb hnn data dims 1 0 order hi hpos hdata hord hn
  have hne : data.map absf ≠ [] := by
    intro h
    have := congrArg List.length h
    simp [hdata] at this; omega
  have g := foldl_max_greatest (data.map absf) (by
    intro x hx
    obtain ⟨y, -, rfl⟩ := List.mem_map.1 hx
    exact hnn y) hne
  have eT : (data.map absf).foldl max 0 = T := by
    refine IsGreatest.unique (s := {x | ∃ y ∈ data, x = absf y}) ⟨?_, ?_⟩ gT
    · obtain ⟨y, hy, e⟩ := List.mem_map.1 g.1
      exact ⟨y, hy, e.symm⟩
    · rintro x ⟨y, hy, rfl⟩
      exact g.2 (List.mem_map.2 ⟨y, hy, rfl⟩)
  refine ⟨T, q, gT, ⟨⟨m, hm1, hm2, hm3⟩, ?_⟩, ?_, hz⟩
  · rintro x ⟨m', a, b, rfl⟩
    exact hq1 m' a b
  · unfold seTails
    rw [eT, h1]
    simp only [toRes, bind, Except.bind, pure, Except.pure, hq]

/-- **C183** (mirrored data). If the moduli are the same at mirrored frequencies, the number reported for the self-energy bounds the moduli at
both ends of the frequency box, and it is the number that the report on the vertices would give. -/
theorem c183_mirrored_partial (hm : Mirrored absf data dims dims[1]) :
    seTails absf emb data dims order = analyzeTails absf emb data dims 1 0 order ∧
    ∀ r, seTails absf emb data dims order = .ok (some r) → ∀ y ∈ data, (∀ z ∈ data, absf z ≤ absf y) → ∀ m, InRange m dims →
      m.getD 1 0 = 0 ∨ m.getD 1 0 = dims[1] - 1 → absf (elemAt data dims m) ≤ r * absf y := by
  obtain ⟨T, q, gT, gq, hs, hz⟩ := c183_first_partial absf emb hemb hnn data dims order hi hpos hdata hord hn
  obtain ⟨T', q', gT', gq', ha, -, -⟩ := c123_share absf emb hemb hnn data dims 1 0 order hi hpos hdata hord hn
  obtain rfl := gT.unique gT'
  have e : q = q' := by
    refine le_antisymm ?_ ?_
    · obtain ⟨m, h1, h2, h3⟩ := gq.1
      obtain ⟨m', k1, k2, k3⟩ := hm m h1
      rw [h3, ← k3]
      exact gq'.2 ⟨m', k1, by rw [k2, h2], rfl⟩
    · obtain ⟨m, h1, h2, h3⟩ := gq'.1
      obtain ⟨m', k1, k2, k3⟩ := hm m h1
      rw [h3, ← k3]
      exact gq.2 ⟨m', k1, by rw [k2, h2]; omega, rfl⟩
  refine ⟨by rw [hs, ha, e], fun r hr y hy hmax m h1 h2 => ?_⟩
  have ey : T = absf y := gT.unique ⟨⟨y, hy, rfl⟩, by rintro x ⟨z, hz, rfl⟩; exact hmax z hz⟩
  rw [hs] at hr
  by_cases h0 : T = 0
  · simp [h0] at hr
  · rw [if_neg h0] at hr
    simp only [Except.ok.injEq, Option.some.injEq] at hr
    rw [← ey, ← hr, div_mul_cancel₀ q h0]
    rcases h2 with h2 | h2
    · exact gq.2 ⟨m, h1, h2, rfl⟩
    · rw [e]; exact gq'.2 ⟨m, h1, by rw [h2]; rfl, rfl⟩

end

/-- **C183** is false in general: a self-energy that is as large at the upper end of the box as anywhere is reported to have no tails. -/
theorem c183_both_ends_refuted :
    ¬ ∀ (data : List ℚ) (dims order : List Nat) (hi : 1 < dims.length), 0 < numElems dims → data.length = numElems dims → order.Perm (List.range dims[1]) →
      ∀ r, seTails (fun x => |x|) id data dims order = .ok (some r) → ∀ y ∈ data, (∀ z ∈ data, |z| ≤ |y|) → ∀ m, InRange m dims →
        m.getD 1 0 = 0 ∨ m.getD 1 0 = dims[1] - 1 → |elemAt data dims m| ≤ r * |y| := by
  intro h
  have s : seTails (fun x : ℚ => |x|) id [0, 1, 5, 0, 2, 4] [2, 3, 1] [0, 1, 2] = .ok (some 0) := by decide +kernel
  have := h [0, 1, 5, 0, 2, 4] [2, 3, 1] [0, 1, 2] (by decide) (by decide) (by decide) (by decide) 0 s 5 (by simp) (by decide +kernel) [0, 2, 0]
    (by unfold InRange; simp) (by simp)
  have e : elemAt [0, 1, 5, 0, 2, (4 : ℚ)] [2, 3, 1] [0, 2, 0] = 5 := by decide +kernel
  rw [e] at this
  norm_num at this

/-- **C183** is false in general: the self-energy that vanishes, with which a calculation may start, makes the report NaN. -/
theorem c183_number_refuted : seTails (fun x : ℚ => |x|) id [0, 0, 0, 0, 0, 0] [2, 3, 1] [0, 1, 2] = .ok none := by decide +kernel

/-- Data that are mirrored, with tails of a quarter of the peak. -/
example : seTails (fun x : ℚ => |x|) id [1, 4, -1, 0, 2, 0] [2, 3, 1] [2, 0, 1] = .ok (some (1 / 4)) ∧
    analyzeTails (fun x : ℚ => |x|) id [1, 4, -1, 0, 2, 0] [2, 3, 1] 1 0 [2, 0, 1] = .ok (some (1 / 4)) := by decide +kernel

theorem threes (m : List Nat) (h : InRange m [2, 3, 1]) : m ∈ [[0, 0, 0], [0, 1, 0], [0, 2, 0], [1, 0, 0], [1, 1, 0], [1, 2, 0]] := by
  unfold InRange at h
  obtain ⟨a, l, h1, h2, rfl⟩ := List.forall₂_cons_right_iff.1 h
  obtain ⟨b, l, h3, h4, rfl⟩ := List.forall₂_cons_right_iff.1 h2
  obtain ⟨c, l, h5, h6, rfl⟩ := List.forall₂_cons_right_iff.1 h4
  obtain rfl := List.forall₂_nil_right_iff.1 h6
  interval_cases a <;> interval_cases b <;> interval_cases c <;> simp

example : Mirrored (fun x : ℚ => |x|) [1, 4, -1, 0, 2, 0] [2, 3, 1] 3 := by
  intro m h
  have := threes m h
  simp only [List.mem_cons, List.not_mem_nil, or_false] at this
  rcases this with rfl | rfl | rfl | rfl | rfl | rfl
  · exact ⟨[0, 2, 0], by unfold InRange; simp, rfl, by decide +kernel⟩
  · exact ⟨[0, 1, 0], by unfold InRange; simp, rfl, by decide +kernel⟩
  · exact ⟨[0, 0, 0], by unfold InRange; simp, rfl, by decide +kernel⟩
  · exact ⟨[1, 2, 0], by unfold InRange; simp, rfl, by decide +kernel⟩
  · exact ⟨[1, 1, 0], by unfold InRange; simp, rfl, by decide +kernel⟩
  · exact ⟨[1, 0, 0], by unfold InRange; simp, rfl, by decide +kernel⟩

end Verif.Buffer
