import Verif.Heredity.PropsCode
import Verif.Heredity.Analytic

/-! C149: causality of the class `K1`, and the symmetries and analyticity of the propagators of the code. -/
namespace Verif.Heredity
open Verif.Symmetries Verif.Pipeline Verif.Reduce MeasureTheory
open Verif.Freqs (Ch Fr legs)

/-- The Keldysh indices of a left vertex in channel `c`: those of the external legs, and those at the lines `y` and `z`. -/
def outerL (c : Ch) (α : Fin 4 → Bool) : Bool × Bool :=
  match c with | .a => (α 0, α 3) | .p => (α 0, α 1) | .t => (α 1, α 3)

/-- See `outerL`. -/
def innerL (c : Ch) (α : Fin 4 → Bool) : Bool × Bool :=
  match c with | .a => (α 2, α 1) | .p => (α 2, α 3) | .t => (α 2, α 0)

/-- The same for a right vertex. -/
def outerR (c : Ch) (α : Fin 4 → Bool) : Bool × Bool :=
  match c with | .a => (α 1, α 2) | .p => (α 2, α 3) | .t => (α 0, α 2)

/-- See `outerR`. -/
def innerR (c : Ch) (α : Fin 4 → Bool) : Bool × Bool :=
  match c with | .a => (α 0, α 3) | .p => (α 0, α 1) | .t => (α 1, α 3)

/-- Causal structure of a vertex whose external pair of legs in channel `c` is attached to a bare vertex with its inner
pair of odd parity: it vanishes if the indices at both lines are 2, and it is a bounded analytic function of the frequency
of the lines in one half-plane if one of them is. -/
structure CausalLeg (T : Vertex ℝ ℂ) (c : Ch) : Prop where
  zeroL : ∀ s < 2, ∀ α, (outerL c α).1 = (outerL c α).2 → innerL c α = (true, true) → ∀ ν, T.val false c s α ν = 0
  upperL : ∀ s < 2, ∀ α, (outerL c α).1 = (outerL c α).2 → innerL c α = (true, false) → ∀ w v,
    Upper fun x => T.val false c s α (legFun (legs (.ch c) ⟨w, v, x⟩))
  lowerL : ∀ s < 2, ∀ α, (outerL c α).1 = (outerL c α).2 → innerL c α = (false, true) → ∀ w v,
    Upper fun x => star (T.val false c s α (legFun (legs (.ch c) ⟨w, v, x⟩)))
  zeroR : ∀ s < 2, ∀ α, (outerR c α).1 = (outerR c α).2 → innerR c α = (true, true) → ∀ ν, T.val true c s α ν = 0
  upperR : ∀ s < 2, ∀ α, (outerR c α).1 = (outerR c α).2 → innerR c α = (false, true) → ∀ w v,
    Upper fun x => T.val true c s α (legFun (legs (.ch c) ⟨w, x, v⟩))
  lowerR : ∀ s < 2, ∀ α, (outerR c α).1 = (outerR c α).2 → innerR c α = (true, false) → ∀ w v,
    Upper fun x => star (T.val true c s α (legFun (legs (.ch c) ⟨w, x, v⟩)))

variable {c : Ch} {L R : Vertex ℝ ℂ} {G S : ℝ → Keldysh.Prop2 ℂ} {diff : Bool}

/-- Lines of channels `a`, `t`. -/
theorem ret_plus {f : ℝ → ℂ} (h : Retarded f) (w : ℝ) : Retarded fun x => f (x + w * (1/2)) := h.shift _

theorem ret_minus {f : ℝ → ℂ} (h : Retarded f) (w : ℝ) : Retarded fun x => f (x - w * (1/2)) := h.shift (-(w * (1/2)))

theorem ret_refl {f : ℝ → ℂ} (h : Retarded f) (w : ℝ) : Retarded fun x => star (f (w * (1/2) - x)) := by
  have := (h.reflect).shift (-(w * (1/2)))
  have e : ∀ x, -(x + -(w * (1/2))) = w * (1/2) - x := fun x => by ring
  simpa only [e] using this

theorem Upper.congr {f g : ℝ → ℂ} (h : Upper f) (e : ∀ x, f x = g x) : Upper g := (funext e : f = g) ▸ h

theorem Null.congr {f g : ℝ → ℂ} (h : Null f) (e : ∀ x, f x = g x) : Null g := (funext e : f = g) ▸ h

/-- A product of two retarded functions with bounded analytic ones. -/
theorem null_chain {l r f g : ℝ → ℂ} (hl : Upper l) (hr : Upper r) (hf : Retarded f) (hg : Retarded g) :
    Null fun x => l x * (f x * g x) * r x :=
  ((hf.mul_upper hl).null_mul (hg.mul_upper hr)).congr fun x => by ring

theorem null_pair {l r : ℝ → ℂ} (hl : Upper l) (hr : Upper r) (hG : Retarded fun v => (G v).gr)
    (hS : diff = true → Retarded fun v => (S v).gr) (w : ℝ) :
    (c ≠ .p → Null fun x => l x * pairOf G S diff true true false false (fermi1 c x w) (fermi2 c x w) * r x) ∧
    (c = .p → Null fun x => l x * pairOf G S diff true false false true (fermi1 c x w) (fermi2 c x w) * r x) := by
  refine ⟨fun hc => ?_, ?_⟩
  · have e1 : ∀ x, fermi1 c x w = x - w * (1/2) := by cases c <;> simp_all [fermi1]
    have e2 : ∀ x, fermi2 c x w = x + w * (1/2) := by cases c <;> simp_all [fermi2]
    simp only [e1, e2]
    cases diff
    · exact (null_chain hl hr (ret_minus hG w) (ret_plus hG w)).congr fun x => by simp [pairOf, comp]
    · exact ((null_chain hl hr (ret_minus hG w) (ret_plus (hS rfl) w)).add
        (null_chain hl hr (ret_minus (hS rfl) w) (ret_plus hG w))).congr fun x => by simp [pairOf, comp]; ring
  · rintro rfl
    simp only [fermi1, fermi2]
    cases diff
    · exact (null_chain hl hr (ret_plus hG w) (ret_refl hG w)).congr fun x => by simp [pairOf, comp]
    · exact ((null_chain hl hr (ret_plus hG w) (ret_refl (hS rfl) w)).add
        (null_chain hl hr (ret_plus (hS rfl) w) (ret_refl hG w))).congr fun x => by simp [pairOf, comp]; ring

/-- The same for the advanced components. -/
theorem null_pair' {l r : ℝ → ℂ} (hl : Upper fun x => star (l x)) (hr : Upper fun x => star (r x))
    (hG : Retarded fun v => (G v).gr) (hS : diff = true → Retarded fun v => (S v).gr) (w : ℝ) :
    (c ≠ .p → Null fun x => l x * pairOf G S diff false false true true (fermi1 c x w) (fermi2 c x w) * r x) ∧
    (c = .p → Null fun x => l x * pairOf G S diff false true true false (fermi1 c x w) (fermi2 c x w) * r x) := by
  obtain ⟨h1, h2⟩ := null_pair (c := c) hl hr hG hS w
  refine ⟨fun hc => (h1 hc).star.congr fun x => ?_, fun hc => (h2 hc).star.congr fun x => ?_⟩ <;>
    cases diff <;> simp [pairOf, comp]

theorem upper_if {p : Prop} [Decidable p] {f : ℝ → ℂ} (h : Upper f) : Upper fun x => if p then f x else 0 := by
  by_cases hp : p
  · simpa only [if_pos hp] using h
  · simpa only [if_neg hp] using Upper.const 0

theorem star_if {p : Prop} [Decidable p] (z : ℂ) : star (if p then z else 0) = if p then star z else 0 := by
  split_ifs <;> simp

theorem null_term {l r : Bool → Bool → ℝ → ℂ} (l0 : ∀ x, l true true x = 0) (lu : Upper (l true false))
    (ll : Upper fun x => star (l false true x)) (r0 : ∀ x, r true true x = 0) (ru : Upper (r false true))
    (rl : Upper fun x => star (r true false x)) (hG : Retarded fun v => (G v).gr)
    (hS : diff = true → Retarded fun v => (S v).gr) (w : ℝ) (y0 y1 y2 y3 : Bool) :
    (c ≠ .p → Null fun x => l y0 y3 x * pairOf G S diff y0 y1 y2 y3 (fermi1 c x w) (fermi2 c x w) * r y2 y1 x) ∧
    (c = .p → Null fun x => l y0 y1 x * pairOf G S diff y0 y1 y2 y3 (fermi1 c x w) (fermi2 c x w) * r y2 y3 x) := by
  have z : ∀ f : ℝ → ℂ, (∀ x, f x = 0) → Null f := fun f h => Null.zero.congr fun x => (h x).symm
  have h1 := null_pair (c := c) lu ru hG hS w
  have h2 := null_pair' (c := c) ll rl hG hS w
  refine ⟨fun hc => ?_, fun hc => ?_⟩ <;> cases y0 <;> cases y1 <;> cases y2 <;> cases y3 <;>
    first
    | exact h1.1 hc
    | exact h1.2 hc
    | exact h2.1 hc
    | exact h2.2 hc
    | exact z _ fun x => by rw [l0, zero_mul, zero_mul]
    | exact z _ fun x => by rw [r0, mul_zero]
    | exact z _ fun x => by cases diff <;> simp [pairOf, comp]

theorem upper_legVal (s1 s2 s3 s4 : Bool) {f a b : ℝ → ℂ} (ha : Upper a) (hb : Upper b)
    (e : ∀ x, f x = (if s1 = s3 ∧ s2 = s4 then a x else 0) + (if s1 = s4 ∧ s2 = s3 then b x else 0)) : Upper f :=
  ((upper_if ha).add (upper_if hb)).congr fun x => (e x).symm

theorem inner_null (hL : CausalLeg L c) (hR : CausalLeg R c) (hG : Retarded fun v => (G v).gr)
    (hS : diff = true → Retarded fun v => (S v).gr) {s : Nat} {α : Fin 4 → Bool}
    (ho : (outerL c α).1 = (outerL c α).2) (hr : (outerR c α).1 = (outerR c α).2) (w v v' : ℝ) :
    Null fun x => innerE L R (pairOf G S diff) c (ext s α (legFun (legs (.ch c) ⟨w, v, v'⟩)))
      (fermi1 c x w, fermi2 c x w) := by
  unfold innerE inner
  refine Null.sum _ fun q _ => ?_
  obtain ⟨u, t, y0, y1, y2, y3⟩ := q
  cases c
  · refine (null_term (c := .a) (l := fun y0 y3 x => legVal L false .a ⟨true, α 0, legFun (legs (.ch .a) ⟨w, v, v'⟩) 0⟩
      ⟨t, y3, fermi2 .a x w⟩ ⟨u, y0, fermi1 .a x w⟩ ⟨s != 0, α 3, legFun (legs (.ch .a) ⟨w, v, v'⟩) 3⟩)
      (r := fun y2 y1 x => legVal R true .a ⟨u, y2, fermi1 .a x w⟩
        ⟨false, α 1, legFun (legs (.ch .a) ⟨w, v, v'⟩) 1⟩ ⟨s == 0, α 2, legFun (legs (.ch .a) ⟨w, v, v'⟩) 2⟩
        ⟨t, y1, fermi2 .a x w⟩) ?_ ?_ ?_ ?_ ?_ ?_ hG hS w y0 y1 y2 y3).1 (by decide)
    · intro x
      simp only [legVal, ← (legs_a w v v' x).1]
      rw [hL.zeroL 0 (by decide) ![α 0, true, true, α 3] ho rfl, hL.zeroL 1 (by decide) ![α 0, true, true, α 3] ho rfl]; simp
    · refine upper_legVal true t u (s != 0) (hL.upperL 0 (by decide) ![α 0, false, true, α 3] ho rfl w v)
        (hL.upperL 1 (by decide) ![α 0, false, true, α 3] ho rfl w v) fun x => ?_
      simp only [legVal, ← (legs_a w v v' x).1]
    · refine upper_legVal true t u (s != 0) (hL.lowerL 0 (by decide) ![α 0, true, false, α 3] ho rfl w v)
        (hL.lowerL 1 (by decide) ![α 0, true, false, α 3] ho rfl w v) fun x => ?_
      simp only [legVal, ← (legs_a w v v' x).1, star_add, star_if]
    · intro x
      simp only [legVal, ← (legs_a w v v' x).2]
      rw [hR.zeroR 0 (by decide) ![true, α 1, α 2, true] hr rfl, hR.zeroR 1 (by decide) ![true, α 1, α 2, true] hr rfl]; simp
    · refine upper_legVal u false (s == 0) t (hR.upperR 0 (by decide) ![false, α 1, α 2, true] hr rfl w v')
        (hR.upperR 1 (by decide) ![false, α 1, α 2, true] hr rfl w v') fun x => ?_
      simp only [legVal, ← (legs_a w v v' x).2]
    · refine upper_legVal u false (s == 0) t (hR.lowerR 0 (by decide) ![true, α 1, α 2, false] hr rfl w v')
        (hR.lowerR 1 (by decide) ![true, α 1, α 2, false] hr rfl w v') fun x => ?_
      simp only [legVal, ← (legs_a w v v' x).2, star_add, star_if]
  · by_cases hq : u = (s == 0) ∧ t = (s != 0)
    · refine ((null_term (c := .p) (l := fun y0 y1 x => legVal L false .p ⟨true, α 0, legFun (legs (.ch .p) ⟨w, v, v'⟩) 0⟩
        ⟨false, α 1, legFun (legs (.ch .p) ⟨w, v, v'⟩) 1⟩ ⟨u, y0, fermi1 .p x w⟩ ⟨t, y1, fermi2 .p x w⟩)
        (r := fun y2 y3 x => legVal R true .p ⟨u, y2, fermi1 .p x w⟩ ⟨t, y3, fermi2 .p x w⟩
        ⟨s == 0, α 2, legFun (legs (.ch .p) ⟨w, v, v'⟩) 2⟩ ⟨s != 0, α 3, legFun (legs (.ch .p) ⟨w, v, v'⟩) 3⟩)
        ?_ ?_ ?_ ?_ ?_ ?_ hG hS w y0 y1 y2 y3).2 rfl).congr fun x => ?_
      · intro x
        simp only [legVal, ← (legs_p w v v' x).1]
        rw [hL.zeroL 0 (by decide) ![α 0, α 1, true, true] ho rfl, hL.zeroL 1 (by decide) ![α 0, α 1, true, true] ho rfl]; simp
      · refine upper_legVal true false u t (hL.upperL 0 (by decide) ![α 0, α 1, true, false] ho rfl w v)
          (hL.upperL 1 (by decide) ![α 0, α 1, true, false] ho rfl w v) fun x => ?_
        simp only [legVal, ← (legs_p w v v' x).1]
      · refine upper_legVal true false u t (hL.lowerL 0 (by decide) ![α 0, α 1, false, true] ho rfl w v)
          (hL.lowerL 1 (by decide) ![α 0, α 1, false, true] ho rfl w v) fun x => ?_
        simp only [legVal, ← (legs_p w v v' x).1, star_add, star_if]
      · intro x
        simp only [legVal, ← (legs_p w v v' x).2]
        rw [hR.zeroR 0 (by decide) ![true, true, α 2, α 3] hr rfl, hR.zeroR 1 (by decide) ![true, true, α 2, α 3] hr rfl]; simp
      · refine upper_legVal u t (s == 0) (s != 0) (hR.upperR 0 (by decide) ![false, true, α 2, α 3] hr rfl w v')
          (hR.upperR 1 (by decide) ![false, true, α 2, α 3] hr rfl w v') fun x => ?_
        simp only [legVal, ← (legs_p w v v' x).2]
      · refine upper_legVal u t (s == 0) (s != 0) (hR.lowerR 0 (by decide) ![true, false, α 2, α 3] hr rfl w v')
          (hR.lowerR 1 (by decide) ![true, false, α 2, α 3] hr rfl w v') fun x => ?_
        simp only [legVal, ← (legs_p w v v' x).2, star_add, star_if]
      · exact (if_pos hq).symm
    · exact Null.zero.congr fun x => (if_neg hq).symm
  · refine (null_term (c := .t) (l := fun y0 y3 x => legVal L false .t ⟨t, y3, fermi2 .t x w⟩
      ⟨false, α 1, legFun (legs (.ch .t) ⟨w, v, v'⟩) 1⟩ ⟨u, y0, fermi1 .t x w⟩
      ⟨s != 0, α 3, legFun (legs (.ch .t) ⟨w, v, v'⟩) 3⟩)
      (r := fun y2 y1 x => legVal R true .t ⟨true, α 0, legFun (legs (.ch .t) ⟨w, v, v'⟩) 0⟩ ⟨u, y2, fermi1 .t x w⟩
        ⟨s == 0, α 2, legFun (legs (.ch .t) ⟨w, v, v'⟩) 2⟩ ⟨t, y1, fermi2 .t x w⟩)
      ?_ ?_ ?_ ?_ ?_ ?_ hG hS w y0 y1 y2 y3).1 (by decide)
    · intro x
      simp only [legVal, ← (legs_t w v v' x).1]
      rw [hL.zeroL 0 (by decide) ![true, α 1, true, α 3] ho rfl, hL.zeroL 1 (by decide) ![true, α 1, true, α 3] ho rfl]; simp
    · refine upper_legVal t false u (s != 0) (hL.upperL 0 (by decide) ![false, α 1, true, α 3] ho rfl w v)
        (hL.upperL 1 (by decide) ![false, α 1, true, α 3] ho rfl w v) fun x => ?_
      simp only [legVal, ← (legs_t w v v' x).1]
    · refine upper_legVal t false u (s != 0) (hL.lowerL 0 (by decide) ![true, α 1, false, α 3] ho rfl w v)
        (hL.lowerL 1 (by decide) ![true, α 1, false, α 3] ho rfl w v) fun x => ?_
      simp only [legVal, ← (legs_t w v v' x).1, star_add, star_if]
    · intro x
      simp only [legVal, ← (legs_t w v v' x).2]
      rw [hR.zeroR 0 (by decide) ![α 0, true, α 2, true] hr rfl, hR.zeroR 1 (by decide) ![α 0, true, α 2, true] hr rfl]; simp
    · refine upper_legVal true u (s == 0) t (hR.upperR 0 (by decide) ![α 0, false, α 2, true] hr rfl w v')
        (hR.upperR 1 (by decide) ![α 0, false, α 2, true] hr rfl w v') fun x => ?_
      simp only [legVal, ← (legs_t w v v' x).2]
    · refine upper_legVal true u (s == 0) t (hR.lowerR 0 (by decide) ![α 0, true, α 2, false] hr rfl w v')
        (hR.lowerR 1 (by decide) ![α 0, true, α 2, false] hr rfl w v') fun x => ?_
      simp only [legVal, ← (legs_t w v v' x).2, star_add, star_if]

theorem vanishes_outer : ∀ (c : Ch), ∀ iK < 16, vanishes c .k1 iK = true →
    (outerL c (bits iK)).1 = (outerL c (bits iK)).2 ∧ (outerR c (bits iK)).1 = (outerR c (bits iK)).2 := by
  intro c; cases c <;> decide +kernel

/-- Energies that are conserved are those of three frequencies. -/
theorem legs_surj (c : Ch) {ν : Fin 4 → ℝ} (h : ν 0 + ν 1 = ν 2 + ν 3) : ∃ f : Fr ℝ, legFun (legs (.ch c) f) = ν := by
  cases c
  · refine ⟨⟨ν 3 - ν 0, (ν 0 + ν 3) / 2, (ν 1 + ν 2) / 2⟩, ?_⟩
    funext i; fin_cases i <;> simp [legFun, legs] <;> linarith
  · refine ⟨⟨ν 0 + ν 1, (ν 0 - ν 1) / 2, (ν 2 - ν 3) / 2⟩, ?_⟩
    funext i; fin_cases i <;> simp [legFun, legs] <;> linarith
  · refine ⟨⟨ν 3 - ν 1, (ν 1 + ν 3) / 2, (ν 0 + ν 2) / 2⟩, ?_⟩
    funext i; fin_cases i <;> simp [legFun, legs] <;> linarith

/-- C149: the bubble of causal vertices has vanishing components where causality demands it in the class `K1`. -/
theorem c149_causal (hL : CausalLeg L c) (hR : CausalLeg R c) (hG : Retarded fun v => (G v).gr)
    (hS : diff = true → Retarded fun v => (S v).gr) : Causal (bubble L R (pairOf G S diff)) .k1 c := by
  intro h s hs iK hK hv ν
  obtain ⟨ho, hr⟩ := vanishes_outer c iK hK hv
  by_cases hν : ν 0 + ν 1 = ν 2 + ν 3
  · obtain ⟨⟨w, v, v'⟩, rfl⟩ := legs_surj c hν
    rw [val_pos _ _ _ _ (conserved c _)]
    have e : ∀ x, lineE c (legFun (legs (.ch c) ⟨w, v, v'⟩)) x = (fermi1 c x w, fermi2 c x w) :=
      fun x => lineE_code c ⟨w, v, v'⟩ x
    simp only [e]
    have hL' : CausalLeg (if h then R else L) c := by cases h <;> assumption
    have hR' : CausalLeg (if h then L else R) c := by cases h <;> assumption
    rw [(inner_null hL' hR' hG hS ho hr w v v').2, mul_zero]
  · exact val_neg _ _ _ _ hν

end Verif.Heredity
