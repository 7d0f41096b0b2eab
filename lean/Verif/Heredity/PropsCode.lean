import Verif.Heredity.Model
import Verif.Heredity.Props
import Verif.Propagator.Model

/-! C149 for the computation of the code. -/
namespace Verif.Heredity
open Verif.Symmetries Verif.Pipeline Verif.Reduce MeasureTheory
open Verif.Freqs (Ch Fr legs)

/-- A propagator with anti-Hermitian Keldysh component. -/
def AntiK (G : ℝ → Keldysh.Prop2 ℂ) : Prop := ∀ v, star (G v).gk = -(G v).gk

/-- A particle-hole symmetric propagator. -/
def PH (G : ℝ → Keldysh.Prop2 ℂ) : Prop := ∀ v, (G (-v)).gr = -star (G v).gr ∧ (G (-v)).gk = -(G v).gk

theorem comp_star {G : ℝ → Keldysh.Prop2 ℂ} (h : AntiK G) (v : ℝ) (a b : Bool) :
    star (comp (G v) a b) = -(sg a * sg b) * comp (G v) b a := by
  cases a <;> cases b <;> simp [comp, sg]
  exact h v

theorem comp_ph {G : ℝ → Keldysh.Prop2 ℂ} (h : AntiK G) (hp : PH G) (v : ℝ) (a b : Bool) :
    star (comp (G v) a b) = (sg a * sg b) * comp (G (-v)) a b := by
  obtain ⟨h1, h2⟩ := hp v
  have h0 := h v
  cases a <;> cases b <;> simp [comp, sg, h1, h2]
  exact h0

/-- C149: a pair of propagators with the properties of the propagators has the properties required of a pair. -/
theorem c149_pair {G S : ℝ → Keldysh.Prop2 ℂ} (hG : AntiK G) (hS : AntiK S) {ph : Bool}
    (hp : ph = true → PH G ∧ PH S) (diff : Bool) : GoodPair ph (pairOf G S diff) where
  swap a b c d y z := by cases diff <;> simp [pairOf] <;> ring
  conj a b c d y z := by
    cases diff <;> simp only [pairOf, if_true, if_false, Bool.false_eq_true, star_add, star_mul', comp_star hG, comp_star hS] <;> ring
  ph h a b c d y z := by
    obtain ⟨p1, p2⟩ := hp h
    cases diff <;>
      simp only [pairOf, if_true, if_false, Bool.false_eq_true, star_add, star_mul', comp_ph hG p1, comp_ph hS p2] <;> ring

/-! ### The sums -/

/-- Index of four bits. -/
def pk (a b c d : Bool) : Nat := 8 * a.toNat + 4 * b.toNat + 2 * c.toNat + d.toNat

theorem sum16 (f : Nat → ℂ) :
    ∑ i ∈ Finset.range 16, f i = ∑ a : Bool, ∑ b : Bool, ∑ c : Bool, ∑ d : Bool, f (pk a b c d) := by
  simp only [Finset.sum_range_succ, Finset.sum_range_zero, Fintype.sum_bool, pk, Bool.toNat_true, Bool.toNat_false]
  norm_num
  ring

theorem sumLines (f : Lines → ℂ) : ∑ q : Lines, f q = ∑ u : Bool, ∑ v : Bool, ∑ a : Bool, ∑ b : Bool, ∑ c : Bool,
    ∑ d : Bool, f ⟨u, v, a, b, c, d⟩ := by
  rw [← Fintype.sum_equiv Lines.equiv.symm (fun q => f (Lines.equiv.symm q)) f (fun _ => rfl)]
  simp only [Fintype.sum_prod_type]
  rfl

theorem value_pk (g1 g2 : Keldysh.Prop2 ℂ) (a b c d : Bool) :
    Keldysh.value g1 g2 (pk a b c d) = comp g1 a c * comp g2 b d := by
  cases a <;> cases b <;> cases c <;> cases d <;> simp [pk, Keldysh.value, comp]

theorem valueDiff_pk (g1 g2 s1 s2 : Keldysh.Prop2 ℂ) (a b c d : Bool) :
    Keldysh.valueDiff g1 g2 s1 s2 (pk a b c d) = comp g1 a c * comp s2 b d + comp s1 a c * comp g2 b d := by
  cases a <;> cases b <;> cases c <;> cases d <;> simp [pk, Keldysh.valueDiff, comp]

theorem idx_left : ∀ iK < 16, ∀ a b c d : Bool,
    bits (Keldysh.indicesSum .a iK (pk a b c d)).1 = ![bits iK 0, d, a, bits iK 3] ∧
    bits (Keldysh.indicesSum .a iK (pk a b c d)).2 = ![c, bits iK 1, bits iK 2, b] ∧
    bits (Keldysh.indicesSum .p iK (pk a b c d)).1 = ![bits iK 0, bits iK 1, a, b] ∧
    bits (Keldysh.indicesSum .p iK (pk a b c d)).2 = ![c, d, bits iK 2, bits iK 3] ∧
    bits (Keldysh.indicesSum .t iK (pk a b c d)).1 = ![d, bits iK 1, a, bits iK 3] ∧
    bits (Keldysh.indicesSum .t iK (pk a b c d)).2 = ![bits iK 0, c, bits iK 2, b] := by decide +kernel

variable {cls : Cls} {g : Grids ℝ} {c : Ch} {L R : Vertex ℝ ℂ} {G S : ℝ → Keldysh.Prop2 ℂ} {diff : Bool}

theorem conserved (c : Ch) (f : Fr ℝ) : let ν := legFun (legs (.ch c) f)
    ν 0 + ν 1 = ν 2 + ν 3 := by
  cases c <;> simp [legFun, legs] <;> ring

theorem lineE_code (c : Ch) (f : Fr ℝ) (x : ℝ) :
    lineE c (legFun (legs (.ch c) f)) x = (fermi1 c x f.w, fermi2 c x f.w) := by
  cases c <;> simp [lineE, legFun, legs, fermi1, fermi2] <;> constructor <;> ring

theorem legs_a (w v1 v2 x : ℝ) :
    legFun (legs (.ch .a) ⟨w, v1, x⟩) = ![legFun (legs (.ch .a) ⟨w, v1, v2⟩) 0, fermi2 .a x w, fermi1 .a x w,
      legFun (legs (.ch .a) ⟨w, v1, v2⟩) 3] ∧
    legFun (legs (.ch .a) ⟨w, x, v2⟩) = ![fermi1 .a x w, legFun (legs (.ch .a) ⟨w, v1, v2⟩) 1,
      legFun (legs (.ch .a) ⟨w, v1, v2⟩) 2, fermi2 .a x w] := by
  refine ⟨?_, ?_⟩ <;> funext i <;> fin_cases i <;> simp [legFun, legs, fermi1, fermi2] <;> ring

theorem legs_p (w v1 v2 x : ℝ) :
    legFun (legs (.ch .p) ⟨w, v1, x⟩) = ![legFun (legs (.ch .p) ⟨w, v1, v2⟩) 0, legFun (legs (.ch .p) ⟨w, v1, v2⟩) 1,
      fermi1 .p x w, fermi2 .p x w] ∧
    legFun (legs (.ch .p) ⟨w, x, v2⟩) = ![fermi1 .p x w, fermi2 .p x w, legFun (legs (.ch .p) ⟨w, v1, v2⟩) 2,
      legFun (legs (.ch .p) ⟨w, v1, v2⟩) 3] := by
  refine ⟨?_, ?_⟩ <;> funext i <;> fin_cases i <;> simp [legFun, legs, fermi1, fermi2] <;> ring

theorem legs_t (w v1 v2 x : ℝ) :
    legFun (legs (.ch .t) ⟨w, v1, x⟩) = ![fermi2 .t x w, legFun (legs (.ch .t) ⟨w, v1, v2⟩) 1, fermi1 .t x w,
      legFun (legs (.ch .t) ⟨w, v1, v2⟩) 3] ∧
    legFun (legs (.ch .t) ⟨w, x, v2⟩) = ![legFun (legs (.ch .t) ⟨w, v1, v2⟩) 0, fermi1 .t x w,
      legFun (legs (.ch .t) ⟨w, v1, v2⟩) 2, fermi2 .t x w] := by
  refine ⟨?_, ?_⟩ <;> funext i <;> fin_cases i <;> simp [legFun, legs, fermi1, fermi2] <;> ring

theorem integrand_code {k : Key} (hs : k.spin < 2) (hK : k.iK < 16) (x : ℝ) :
    bubbleSum c k.spin ((input cls g c L R G S diff).left { k with iK := 0 } x)
      ((input cls g c L R G S diff).right { k with iK := 0 } x)
      ((input cls g c L R G S diff).pairValue { k with iK := 0 } x) k.iK =
    innerE L R (pairOf G S diff) c (ext k.spin (bits k.iK) (legFun (legs (.ch c) (keyFreq cls g k))))
      (fermi1 c x (keyFreq cls g k).w, fermi2 c x (keyFreq cls g k).w) := by
  have hf : keyFreq cls g { k with iK := 0 } = keyFreq cls g k := by cases cls <;> rfl
  rcases he : keyFreq cls g k with ⟨w, v1, v2⟩
  have hP : ∀ a b e d, (input cls g c L R G S diff).pairValue { k with iK := 0 } x (pk a b e d) =
      pairOf G S diff a b e d (fermi1 c x w) (fermi2 c x w) := by
    intro a b e d
    unfold Input.pairValue
    simp only [input, hf, he]
    cases diff
    · simp only [pairOf, if_false, Bool.false_eq_true]
      exact value_pk _ _ _ _ _ _
    · simp only [pairOf, if_true]
      exact valueDiff_pk _ _ _ _ _ _ _ _
  have hs' : k.spin = 0 ∨ k.spin = 1 := by omega
  have hidx := idx_left k.iK hK
  generalize hpv : (input cls g c L R G S diff).pairValue { k with iK := 0 } x = pv at hP ⊢
  cases c
  · simp only [bubbleSum, keldyshSum, sum16, innerE, inner, sumLines, term, kch, hP]
    refine Fintype.sum_congr _ _ fun u => Fintype.sum_congr _ _ fun v => Fintype.sum_congr _ _ fun a =>
      Fintype.sum_congr _ _ fun b => Fintype.sum_congr _ _ fun e => Fintype.sum_congr _ _ fun d => ?_
    obtain ⟨h1, h2, -⟩ := hidx a b e d
    obtain ⟨l1, l2⟩ := legs_a w v1 v2 x
    simp only [spins, SpinSum.Vert.at, input, h1, h2, hf, he, legVal, ext, l1, l2]
    rfl
  · simp only [bubbleSum, keldyshSum, sum16, innerE, inner, sumLines, term, kch, hP]
    have hz : ∀ (F : Bool → Bool → ℂ) (s1 s2 : Bool), (∑ u : Bool, ∑ v : Bool, if u = s1 ∧ v = s2 then F u v else 0) =
        F s1 s2 := by
      intro F s1 s2
      cases s1 <;> cases s2 <;> simp
    have hq : ∀ (F : Bool → Bool → Bool → Bool → Bool → Bool → ℂ) (s1 s2 : Bool),
        (∑ u : Bool, ∑ v : Bool, ∑ a : Bool, ∑ b : Bool, ∑ e : Bool, ∑ d : Bool,
          if u = s1 ∧ v = s2 then F u v a b e d else 0) =
        ∑ a : Bool, ∑ b : Bool, ∑ e : Bool, ∑ d : Bool, F s1 s2 a b e d := by
      intro F s1 s2
      rw [← hz fun u v => ∑ a : Bool, ∑ b : Bool, ∑ e : Bool, ∑ d : Bool, F u v a b e d]
      refine Fintype.sum_congr _ _ fun u => Fintype.sum_congr _ _ fun v => ?_
      split_ifs
      · rfl
      · simp
    rw [hq]
    refine Fintype.sum_congr _ _ fun a => Fintype.sum_congr _ _ fun b => Fintype.sum_congr _ _ fun e =>
      Fintype.sum_congr _ _ fun d => ?_
    obtain ⟨-, -, h1, h2, -, -⟩ := hidx a b e d
    obtain ⟨l1, l2⟩ := legs_p w v1 v2 x
    simp only [input, h1, h2, hf, he, legVal, ext, l1, l2]
    rcases hs' with hs' | hs' <;> rw [hs'] <;> simp
  · simp only [bubbleSum, keldyshSum, sum16, innerE, inner, sumLines, term, kch, hP]
    refine Fintype.sum_congr _ _ fun u => Fintype.sum_congr _ _ fun v => Fintype.sum_congr _ _ fun a =>
      Fintype.sum_congr _ _ fun b => Fintype.sum_congr _ _ fun e => Fintype.sum_congr _ _ fun d => ?_
    obtain ⟨-, -, -, -, h1, h2⟩ := hidx a b e d
    obtain ⟨l1, l2⟩ := legs_t w v1 v2 x
    simp only [spins, SpinSum.Vert.at, input, h1, h2, hf, he, legVal, ext, l1, l2]
    rfl

/-- C149: the diagram that the code computes for an entry is the bubble at the legs of that entry. -/
theorem c149_code {k : Key} (hs : k.spin < 2) (hK : k.iK < 16) :
    (input cls g c L R G S diff).diagram c k = truth (bubble L R (pairOf G S diff)) false cls g c k := by
  unfold truth
  rw [val_pos _ _ _ _ (conserved c _)]
  show pref c * _ = _
  congr 1
  refine integral_congr_ae (Filter.Eventually.of_forall fun x => ?_)
  dsimp only
  rw [lineE_code]
  exact integrand_code hs hK x

/-- As a left vertex, `T` does not depend on the energies of its external legs except through the transferred energy, and
the same as right vertex: this is the case for the parts of a vertex from which the classes without the corresponding
frequency are computed. -/
def Free (T : Vertex ℝ ℂ) (c : Ch) : Prop :=
  (∀ s α w v u x, T.val false c s α (legFun (legs (.ch c) ⟨w, v, x⟩)) = T.val false c s α (legFun (legs (.ch c) ⟨w, u, x⟩))) ∧
  ∀ s α w v u x, T.val true c s α (legFun (legs (.ch c) ⟨w, x, v⟩)) = T.val true c s α (legFun (legs (.ch c) ⟨w, x, u⟩))

theorem inner_free_right {P : Pair} (hR : ∀ s α w v u x, R.val true c s α (legFun (legs (.ch c) ⟨w, x, v⟩)) =
    R.val true c s α (legFun (legs (.ch c) ⟨w, x, u⟩))) (s : Nat) (α : Fin 4 → Bool) (w v v' u' x : ℝ) :
    innerE L R P c (ext s α (legFun (legs (.ch c) ⟨w, v, v'⟩))) (fermi1 c x w, fermi2 c x w) =
    innerE L R P c (ext s α (legFun (legs (.ch c) ⟨w, v, u'⟩))) (fermi1 c x w, fermi2 c x w) := by
  unfold innerE inner
  refine Fintype.sum_congr _ _ fun q => ?_
  cases c
  · have r : ∀ s β, R.val true .a s β ![fermi1 .a x w, legFun (legs (.ch .a) ⟨w, v, v'⟩) 1,
        legFun (legs (.ch .a) ⟨w, v, v'⟩) 2, fermi2 .a x w] = R.val true .a s β ![fermi1 .a x w,
        legFun (legs (.ch .a) ⟨w, v, u'⟩) 1, legFun (legs (.ch .a) ⟨w, v, u'⟩) 2, fermi2 .a x w] := by
      intro s β
      rw [← (legs_a w v v' x).2, ← (legs_a w v u' x).2]; exact hR _ _ _ _ _ _
    simp only [term, legVal, ext, r]
    rfl
  · have r : ∀ s β, R.val true .p s β ![fermi1 .p x w, fermi2 .p x w, legFun (legs (.ch .p) ⟨w, v, v'⟩) 2,
        legFun (legs (.ch .p) ⟨w, v, v'⟩) 3] = R.val true .p s β ![fermi1 .p x w, fermi2 .p x w,
        legFun (legs (.ch .p) ⟨w, v, u'⟩) 2, legFun (legs (.ch .p) ⟨w, v, u'⟩) 3] := by
      intro s β
      rw [← (legs_p w v v' x).2, ← (legs_p w v u' x).2]; exact hR _ _ _ _ _ _
    simp only [term, legVal, ext, r]
    rfl
  · have r : ∀ s β, R.val true .t s β ![legFun (legs (.ch .t) ⟨w, v, v'⟩) 0, fermi1 .t x w,
        legFun (legs (.ch .t) ⟨w, v, v'⟩) 2, fermi2 .t x w] = R.val true .t s β ![
        legFun (legs (.ch .t) ⟨w, v, u'⟩) 0, fermi1 .t x w, legFun (legs (.ch .t) ⟨w, v, u'⟩) 2, fermi2 .t x w] := by
      intro s β
      rw [← (legs_t w v v' x).2, ← (legs_t w v u' x).2]; exact hR _ _ _ _ _ _
    simp only [term, legVal, ext, r]
    rfl

theorem inner_free_left {P : Pair} (hL : ∀ s α w v u x, L.val false c s α (legFun (legs (.ch c) ⟨w, v, x⟩)) =
    L.val false c s α (legFun (legs (.ch c) ⟨w, u, x⟩))) (s : Nat) (α : Fin 4 → Bool) (w v v' u x : ℝ) :
    innerE L R P c (ext s α (legFun (legs (.ch c) ⟨w, v, v'⟩))) (fermi1 c x w, fermi2 c x w) =
    innerE L R P c (ext s α (legFun (legs (.ch c) ⟨w, u, v'⟩))) (fermi1 c x w, fermi2 c x w) := by
  unfold innerE inner
  refine Fintype.sum_congr _ _ fun q => ?_
  cases c
  · have r : ∀ s β, L.val false .a s β ![legFun (legs (.ch .a) ⟨w, v, v'⟩) 0, fermi2 .a x w, fermi1 .a x w,
        legFun (legs (.ch .a) ⟨w, v, v'⟩) 3] = L.val false .a s β ![legFun (legs (.ch .a) ⟨w, u, v'⟩) 0,
        fermi2 .a x w, fermi1 .a x w, legFun (legs (.ch .a) ⟨w, u, v'⟩) 3] := by
      intro s β
      rw [← (legs_a w v v' x).1, ← (legs_a w u v' x).1]; exact hL _ _ _ _ _ _
    simp only [term, legVal, ext, r]
    rfl
  · have r : ∀ s β, L.val false .p s β ![legFun (legs (.ch .p) ⟨w, v, v'⟩) 0, legFun (legs (.ch .p) ⟨w, v, v'⟩) 1,
        fermi1 .p x w, fermi2 .p x w] = L.val false .p s β ![legFun (legs (.ch .p) ⟨w, u, v'⟩) 0,
        legFun (legs (.ch .p) ⟨w, u, v'⟩) 1, fermi1 .p x w, fermi2 .p x w] := by
      intro s β
      rw [← (legs_p w v v' x).1, ← (legs_p w u v' x).1]; exact hL _ _ _ _ _ _
    simp only [term, legVal, ext, r]
    rfl
  · have r : ∀ s β, L.val false .t s β ![fermi2 .t x w, legFun (legs (.ch .t) ⟨w, v, v'⟩) 1, fermi1 .t x w,
        legFun (legs (.ch .t) ⟨w, v, v'⟩) 3] = L.val false .t s β ![fermi2 .t x w,
        legFun (legs (.ch .t) ⟨w, u, v'⟩) 1, fermi1 .t x w, legFun (legs (.ch .t) ⟨w, u, v'⟩) 3] := by
      intro s β
      rw [← (legs_t w v v' x).1, ← (legs_t w u v' x).1]; exact hL _ _ _ _ _ _
    simp only [term, legVal, ext, r]
    rfl

/-- The bubble depends only on the frequencies its vertices depend on. -/
theorem bubble_independent {P : Pair} (hL : cls = .k1 → Free L c) (hR : cls ≠ .k3 → Free R c) :
    Independent (bubble L R P) cls c := by
  have step : ∀ {L R : Vertex ℝ ℂ} (h : Bool), Free (if h then L else R) c → ∀ s α (w v v' u' : ℝ),
      (bubble L R P).val h c s α (legFun (legs (.ch c) ⟨w, v, v'⟩)) =
      (bubble L R P).val h c s α (legFun (legs (.ch c) ⟨w, v, u'⟩)) := by
    intro L R h hF s α w v v' u'
    rw [val_pos _ _ _ _ (conserved c _), val_pos _ _ _ _ (conserved c _)]
    congr 1
    refine integral_congr_ae (Filter.Eventually.of_forall fun x => ?_)
    dsimp only
    rw [lineE_code, lineE_code]
    exact inner_free_right hF.2 s α w v v' u' x
  have step' : ∀ {L R : Vertex ℝ ℂ} (h : Bool), Free (if h then R else L) c → ∀ s α (w v v' u : ℝ),
      (bubble L R P).val h c s α (legFun (legs (.ch c) ⟨w, v, v'⟩)) =
      (bubble L R P).val h c s α (legFun (legs (.ch c) ⟨w, u, v'⟩)) := by
    intro L R h hF s α w v v' u
    rw [val_pos _ _ _ _ (conserved c _), val_pos _ _ _ _ (conserved c _)]
    congr 1
    refine integral_congr_ae (Filter.Eventually.of_forall fun x => ?_)
    dsimp only
    rw [lineE_code, lineE_code]
    exact inner_free_left hF.1 s α w v v' u x
  cases cls
  · intro h s α w v v' u u'
    have h1 := hL rfl
    have h2 := hR (by decide)
    rw [step h (by cases h <;> assumption) s α w v v' u', step' h (by cases h <;> assumption) s α w v u' u]
  · intro s α w v v' u'
    exact step false (hR (by decide)) s α w v v' u'
  · trivial

/-- C149: for vertices and propagators with the physical symmetries the computation delivers in every entry the diagram
itself: completing the calculated entries by symmetry gives the same as calculating all of them. Assumed about the
diagrams is only that components forbidden by causality vanish. -/
theorem c149_completed {ph : Bool} {ε : ℝ} (hL : Sym ⟨true, ph, false⟩ L) (hR : Sym ⟨true, ph, false⟩ R)
    (hG : AntiK G) (hS : AntiK S) (hp : ph = true → PH G ∧ PH S) (hmir : cls ≠ .k2 → L = R)
    (hfL : cls = .k1 → Free L c) (hfR : cls ≠ .k3 → Free R c)
    (hc : Causal (bubble L R (pairOf G S diff)) cls c)
    (hε : 0 ≤ ε) (hg : GoodGrids g) (dbg : Bool) {ws nodes : Nat} {small : ℂ → Bool}
    {sched : Nat → Nat → List (Nat × Nat)} (hws : 0 < ws) (hn : 0 < nodes) (hsm : small 0 = true)
    (hs : Mpi.ValidSchedule ⟨ws, nodes, Index.numElems (dims cls g 1), 16⟩
      ((Index.numElems (dims cls g 1) + nodes - 1) / nodes) sched) {l : List Event} (hl : Schedule cls g l) :
    ∃ f, call dbg cls ⟨true, ph, false⟩ ε g c (input cls g c L R G S diff) ws nodes small sched l = .ok f ∧
      ∀ k : Key, k.Valid cls g → f k = (bubble L R (pairOf G S diff)).val false c k.spin (bits k.iK)
        (legFun (legs (.ch c) (keyFreq cls g k))) := by
  have hV := c149_symmetric hL hR (c149_pair hG hS hp diff)
  have hm : cls ≠ .k2 → ∀ s α ν, (bubble L R (pairOf G S diff)).val true c s α ν =
      (bubble L R (pairOf G S diff)).val false c s α ν := by
    intro h s α ν
    obtain rfl := hmir h
    simp [bubble]
  exact c148_exact dbg (input cls g c L R G S diff) hV (bubble_independent hfL hfR) hc hm rfl
    (fun k hk _ => c149_code hk.1 hk.2.2.1) hε hg hws hn hsm hs hl

end Verif.Heredity
