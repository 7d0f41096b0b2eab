import Verif.Sde.ModelImag
import Verif.Sde.Props
import Verif.ImagFlow.PropsReal

/-! C160: the parquet iteration at imaginary frequencies. -/
namespace Verif.Sde.Imag
open Verif.Symmetries Verif.ImagFlow
open Verif.Freqs (Ch Fr)

section
variable {R : Type} [CommRing R] [StarRing R] [Algebra ℝ R] [StarModule ℝ R]

/-- The vertex as loops of the two versions see it, by the outer and the inner frequency. -/
def seen (version : Bool) (Γ : Part R) (v vp : ℤ) : R :=
  if version then Γ 0 Imag.k0 ![vp, v, v, vp] + Γ 1 Imag.k0 ![vp, v, v, vp] else Γ 0 Imag.k0 ![v, vp, v, vp]

omit [StarRing R] [Algebra ℝ R] [StarModule ℝ R] in
theorem integrand_eq (version ph : Bool) (Γ : Part R) (G : ℤ → R) (v vp : ℤ) :
    integrand version ph Γ G v vp = (if ph then -1 else 1) * (G vp * seen version Γ v vp) := by
  have hl : legFun (legsR (fun w : ℤ => w / 2) .t ⟨0, vp, v⟩) = ![v, vp, v, vp] := by
    funext k; fin_cases k <;> simp [legFun, legsR]
  have ha : legFun (legsR (fun w : ℤ => w / 2) .a ⟨0, vp, v⟩) = ![vp, v, v, vp] := by
    funext k; fin_cases k <;> simp [legFun, legsR]
  cases version <;> simp only [integrand, seen, Bool.false_eq_true, if_false, if_true, hl, ha] <;> cases ph <;> simp

/-- C160: the loop over one channel never fails; it is minus (version 1: plus) the temperature times the sum over the
fermionic frequencies of modulus below `2 * POSINTRANGE` of propagator times vertex. -/
theorem c160_loop_value (version : Bool) (u : ImagFlow.Setup R) (Γ : Part R) (G : ℤ → R) (v : ℤ) :
    loopRes version u Γ G v = .ok (loopOne version u Γ G v) ∧
    loopOne version u Γ G v = (if version then -1 else 1) * -(u.T • ∑ n ∈ Finset.Icc (-(u.pos : ℤ)) (u.pos - 1),
      (if u.ph then -1 else 1) * (G (2 * n + 1) * seen version Γ v (2 * n + 1))) := by
  have h : loopRes version u Γ G v = .ok ((if version then -1 else 1) * -(u.T • ∑ n ∈ Finset.Icc (-(u.pos : ℤ)) (u.pos - 1),
      integrand version u.ph Γ G v (2 * n + 1))) := by
    simp only [loopRes, (MatSum.c96_loop u.pos (integrand version u.ph Γ G v)).1]; rfl
  have h2 : loopOne version u Γ G v = (if version then -1 else 1) * -(u.T • ∑ n ∈ Finset.Icc (-(u.pos : ℤ)) (u.pos - 1),
      integrand version u.ph Γ G v (2 * n + 1)) := by
    simp only [loopOne, h]
  exact ⟨by rw [h, h2], by rw [h2]; simp only [integrand_eq]⟩

theorem seen_star {ph : Bool} {V : VF R} (hV : GoodV ph V) (version : Bool) (c : Ch) (v vp : ℤ) :
    star (seen version (V false c) v vp) = seen version (V false c) (-v) (-vp) := by
  have k : ∀ s, s < 2 → ∀ x y z w : ℤ, star (V false c s Imag.k0 ![x, y, z, w]) = V false c s Imag.k0 ![-x, -y, -z, -w] := by
    intro s hs x y z w
    have := hV.sym.tr rfl false c s Imag.k0 ![-x, -y, -z, -w] hs
    simp only at this
    rw [this]
    congr 2
    funext i; fin_cases i <;> simp
  cases version
  · simp only [seen, Bool.false_eq_true, if_false, k 0 (by decide)]
  · simp only [seen, if_true, star_add, k 0 (by decide), k 1 (by decide)]

/-- The loop over the part of a symmetric vertex reducible in one channel is a symmetric self-energy. -/
theorem loopOne_good {ph : Bool} {u : ImagFlow.Setup R} (hu : u.ph = ph) {V : VF R} (hV : GoodV ph V) {G : ℤ → R}
    (hG : Odd ph G) (version : Bool) (c : Ch) : Odd ph (loopOne version u (V false c) G) := by
  subst hu
  intro v
  have sgn : ∀ b : Bool, star (if b = true then (-1 : R) else 1) = if b = true then -1 else 1 := by
    intro b; cases b <;> simp
  rw [(c160_loop_value version u _ G v).2, (c160_loop_value version u _ G (-v)).2, star_mul', sgn, star_neg, star_smul,
    star_trivial u.T, star_sum, mul_left_comm]
  congr 1
  rw [mul_neg, mul_smul_comm, Finset.mul_sum]
  congr 2
  refine Finset.sum_bij' (fun n _ => -1 - n) (fun n _ => -1 - n) ?_ ?_ ?_ ?_ ?_
  · intro n hn; rw [Finset.mem_Icc] at hn ⊢; omega
  · intro n hn; rw [Finset.mem_Icc] at hn ⊢; omega
  · intro n _; ring
  · intro n _; ring
  · intro n _
    have e : 2 * (-1 - n) + 1 = -(2 * n + 1) := by ring
    rw [e, star_mul', star_mul', hG, seen_star hV, sgn]
    ring

omit [StarModule ℝ R] in
theorem star_realPart [StarModule ℝ R] (x : R) : star (realPart x) = realPart x := by
  simp only [realPart, star_smul, star_add, star_star, star_trivial, add_comm]

theorem split_good {u : Setup R} {σ : SF R} (h : Odd u.core.ph σ) : Odd u.core.ph (split u σ) := by
  unfold split
  by_cases hp : u.core.ph = true
  · rw [if_pos hp]; exact h
  · rw [if_neg hp]
    have hp' : u.core.ph = false := by simpa using hp
    intro v
    have := h v
    simp only [hp', Bool.false_eq_true, if_false, one_mul] at this ⊢
    rw [star_sub, this, star_realPart]

theorem mean_good {ph : Bool} {u : ImagFlow.Setup R} {L M : VF R} {P : ℤ → ℤ → R} (hL : GoodV ph L) (hM : GoodV ph M)
    (hP : Imag.GoodPair P) : GoodV ph ((0.5 : ℝ) • (bub u L M P + bub u M L P)) := by
  refine GoodV.smul _ (goodV_of_mirror (Sym.add' (bub_sym hL.sym hM.sym hP) (bub_sym hM.sym hL.sym hP)) ?_)
  rw [mirror_add, mirror_bub, mirror_bub, add_comm]

/-- What the iteration is run with: a symmetric bare vertex and propagators that have the symmetry of a propagator. -/
structure Ready (u : Setup R) (bare : VF R) : Prop where
  bare : GoodV u.core.ph bare
  lines : GoodLines u.core.ph u.core.lines

variable {u : Setup R} {bare : VF R}

theorem closed_good (h : Ready u bare) {Γ : VF R} {σ : SF R} (hΓ : GoodV u.core.ph Γ) (hσ : Odd u.core.ph σ) (c : Ch) :
    Odd u.core.ph (closed u bare σ Γ c) :=
  split_good (loopOne_good rfl (mean_good h.bare hΓ (good_pair rfl h.lines hσ)) (good_G h.lines hσ) _ c)

/-- C160: the part of the self-energy that depends on frequency, computed from a symmetric state, is symmetric: its
conjugate is its value at the opposite frequency, or with particle-hole symmetry the stored imaginary part is odd. -/
theorem c160_dynamic (h : Ready u bare) (first : Bool) {V : VF R} {σ : SF R} (hV : GoodV u.core.ph V)
    (hσ : Odd u.core.ph σ) : Odd u.core.ph (dynamic first u bare σ V) := by
  have hbV := GoodV.add h.bare hV
  have hf := full_good h.bare hV
  cases first
  · simp only [dynamic, Bool.false_eq_true, if_false]
    exact Odd.smul _ (Odd.add (closed_good h hf hσ .a) (closed_good h hf hσ .p))
  · simp only [dynamic, if_true]
    unfold equation1
    rw [sub_eq_add_neg, ← neg_one_smul ℝ]
    exact Odd.add (Odd.add (Odd.add (closed_good h hbV hσ .a) (closed_good h hbV hσ .p)) (closed_good h hbV hσ .t))
      (Odd.smul _ (Odd.smul 2 (closed_good h h.bare hσ .a)))

/-- C160: the right-hand side of the Bethe–Salpeter equation for a symmetric state is symmetric. -/
theorem c160_bse (h : Ready u bare) {V : VF R} {σ : SF R} (hV : GoodV u.core.ph V) (hσ : Odd u.core.ph σ) :
    GoodV u.core.ph (computeBSE u bare σ V) :=
  mean_good (GoodV.add h.bare ⟨others_sym hV, fun _ => rfl⟩) (full_good h.bare hV) (good_pair rfl h.lines hσ)

/-- C160: with complex values an iteration turns symmetric states into symmetric states (missing: with particle-hole
symmetry it does not, see `c160_refuted`). -/
theorem c160_iteration_partial (h : Ready u bare) (hph : u.core.ph = false) (first : Bool) (hartree : SF R → ℝ)
    {y : SF R × VF R} (hy : GoodState u.core.ph y) : GoodState u.core.ph (iteration first u hartree bare y) := by
  refine ⟨?_, c160_bse h hy.2 hy.1⟩
  intro v
  have := c160_dynamic (V := y.2) (σ := y.1) h first hy.2 hy.1 v
  simp only [iteration, computeSDE, shift, hph, Bool.false_eq_true, if_false, one_mul] at this ⊢
  rw [star_add, this, ← algebraMap_star_comm, star_trivial]

omit [StarModule ℝ R] in
theorem combine_good [StarModule ℝ R] {ph : Bool} (hr : ph = true → ∀ r : R, star r = r) {ι : Type} (s : Finset ι)
    (w : ι → ℝ) (y : ι → SF R × VF R) (hy : ∀ i ∈ s, GoodState ph (y i)) : GoodState ph (∑ i ∈ s, w i • y i) := by
  classical
  have : ∀ t : Finset ι, t ⊆ s → GoodState ph (∑ i ∈ t, w i • y i) := by
    intro t
    induction t using Finset.induction_on with
    | empty => intro _; exact ⟨Odd.zero, GoodV.zero hr⟩
    | insert i t hi ih =>
      intro ht
      rw [Finset.sum_insert hi]
      have h1 := hy i (ht (Finset.mem_insert_self _ _))
      have h2 := ih fun x hx => ht (Finset.mem_insert_of_mem hx)
      exact ⟨Odd.add (Odd.smul _ h1.1) h2.1, GoodV.add (GoodV.smul _ h1.2) h2.2⟩
  exact this s (Finset.Subset.refl s)

/-- C160: with complex values the parquet solver started from a symmetric state works with symmetric states only. -/
theorem c160_solver_partial (h : Ready u bare) (hph : u.core.ph = false) {first : Bool} {hartree : SF R → ℝ}
    {upd : List ((SF R × VF R) × (SF R × VF R)) → ℝ → SF R × VF R} {relV relS : SF R × VF R → SF R × VF R → Option ℝ}
    (hu : Affine upd) (acc : ℝ) (Nmax : ℕ) (mix : ℝ) {y : SF R × VF R} (hy : GoodState u.core.ph y) :
    let r := Parquet.solve (problem first u hartree bare upd relV relS) acc Nmax mix y
    GoodState u.core.ph r.1.stateIn ∧ ∀ x ∈ r.1.saved, GoodState u.core.ph x.state := by
  have := solve_keeps (A := GoodState u.core.ph) (P := problem first u hartree bare upd relV relS)
    (fun y hy => c160_iteration_partial h hph first hartree hy) (fun hist m hne hh => by
      obtain ⟨w, w', -, h2⟩ := hu hist m hne
      have hr : u.core.ph = true → ∀ r : R, star r = r := h.bare.sym.real rfl
      have g1 := combine_good hr Finset.univ w (fun i : Fin hist.length => (hist[i]).1) fun i _ => (hh _ (List.getElem_mem _)).1
      have g2 := combine_good hr Finset.univ w' (fun i : Fin hist.length => (hist[i]).2) fun i _ => (hh _ (List.getElem_mem _)).2
      show GoodState u.core.ph (upd hist m)
      rw [h2]
      exact ⟨Odd.add g1.1 g2.1, GoodV.add g1.2 g2.2⟩) acc Nmax mix hy
  exact ⟨this.now, this.saved⟩

/-- C160: the state with which calculations start is symmetric. -/
theorem c160_initial {ph : Bool} (hr : ph = true → ∀ r : R, star r = r) (hartree : ℝ) :
    GoodState ph (initial ph hartree : SF R × VF R) := by
  refine ⟨fun v => ?_, GoodV.zero hr⟩
  cases ph <;> simp [initial, ← algebraMap_star_comm]

/-- C160, refuted with particle-hole symmetry: from every symmetric state, for every interaction other than zero, an
iteration makes a self-energy whose stored imaginary part is not odd. Its values at opposite frequencies add up to the
interaction. -/
theorem c160_refuted [Nontrivial R] (h : Ready u bare) (hph : u.core.ph = true) (hU : u.U ≠ 0) (first : Bool)
    (hartree : SF R → ℝ) {y : SF R × VF R} (hy : GoodState u.core.ph y) :
    (∀ v, (iteration first u hartree bare y).1 v + (iteration first u hartree bare y).1 (-v) = algebraMap ℝ R u.U) ∧
    ¬ GoodState u.core.ph (iteration first u hartree bare y) := by
  have hr : ∀ r : R, star r = r := h.bare.sym.real rfl hph
  have key : ∀ v, (iteration first u hartree bare y).1 v + (iteration first u hartree bare y).1 (-v) =
      algebraMap ℝ R u.U := by
    intro v
    have := c160_dynamic (V := y.2) (σ := y.1) h first hy.2 hy.1 v
    rw [hr] at this
    simp only [hph, if_true, neg_mul, one_mul] at this
    simp only [iteration, computeSDE, shift, hph, if_true, this]
    have e : algebraMap ℝ R u.U = algebraMap ℝ R (u.U / 2) + algebraMap ℝ R (u.U / 2) := by
      rw [← map_add, add_halves]
    rw [e]; ring
  refine ⟨key, fun g => hU ?_⟩
  have := g.1 0
  rw [hr] at this
  simp only [hph, if_true, neg_mul, one_mul] at this
  have k := key 0
  rw [this, neg_add_cancel] at k
  exact (FaithfulSMul.algebraMap_injective ℝ R) (by rw [← k, map_zero])

end

/-! ### Real and complex values -/

section
variable {u : Setup ℝ} {u' : Setup ℂ}

/-- The same computation with the imaginary parts and with the complex numbers: the complex self-energy has the real part
`U/2` in addition, which the propagators compensate. -/
structure SameSetup (u : Setup ℝ) (u' : Setup ℂ) : Prop where
  pos : u'.core.pos = u.core.pos
  T : u'.core.T = u.core.T
  ph : u.core.ph = true
  ph' : u'.core.ph = false
  Λ : u'.Λ = u.Λ
  U : u'.U = u.U
  lines : ∀ Λ v (s : ℝ), u'.core.lines.g Λ v (((u.U / 2 : ℝ) : ℂ) + Complex.I * s) = -Complex.I * u.core.lines.g Λ v s

theorem lineG_same (h : SameSetup u u') (σ : SF ℝ) (v : ℤ) :
    lineG u'.core u'.Λ (shift (u.U / 2) (embS σ)) v = -Complex.I * lineG u.core u.Λ σ v := by
  rw [h.Λ]
  have := h.lines u.Λ v (σ v)
  rw [add_comm] at this
  exact this

theorem pair_same (h : SameSetup u u') (σ : SF ℝ) (y z : ℤ) :
    pair u'.core u'.Λ (shift (u.U / 2) (embS σ)) y z = pair u.core u.Λ σ y z := by
  simp only [pair, Imag.pairOf, h.ph, h.ph', lineG_same h]
  simp [← mul_assoc]
  try ring_nf
  try simp

theorem bub_same (h : SameSetup u u') (L M : VF ℝ) (σ : SF ℝ) :
    bub u'.core (embV L) (embV M) (pair u'.core u'.Λ (shift (u.U / 2) (embS σ))) =
      embV (bub u.core L M (pair u.core u.Λ σ)) := by
  funext b c s α ν
  have := bubble_ofReal u.core.pos L M (pair u.core u.Λ σ) _ (pair_same h σ) b c s α ν
  show u'.core.T • (Verif.Imag.bubble (Verif.Imag.finiteTotal u'.core.pos) _ _ _).val b c s α ν = ((u.core.T • _ : ℝ) : ℂ)
  rw [h.pos, h.T, this]
  simp

theorem loopOne_same (h : SameSetup u u') (version : Bool) (V : VF ℝ) (c : Ch) (σ : SF ℝ) :
    loopOne version u'.core (embV V false c) (lineG u'.core u'.Λ (shift (u.U / 2) (embS σ))) =
      embS (loopOne version u.core (V false c) (lineG u.core u.Λ σ)) := by
  funext v
  show _ = Complex.I * ((loopOne version u.core (V false c) (lineG u.core u.Λ σ) v : ℝ) : ℂ)
  have hs : ∀ v vp, seen version (embV V false c) v vp = ((seen version (V false c) v vp : ℝ) : ℂ) := by
    intro v vp
    cases version <;> simp [seen, embV]
  rw [(c160_loop_value version u'.core _ _ v).2, (c160_loop_value version u.core _ _ v).2, h.pos, h.T, h.ph, h.ph']
  simp only [Bool.false_eq_true, if_false, if_true, one_mul, neg_mul, lineG_same h, hs,
    Finset.sum_neg_distrib, smul_neg, mul_neg, neg_neg, smul_eq_mul, Complex.real_smul]
  have sg : ((if version = true then (-1 : ℝ) else 1 : ℝ) : ℂ) = if version = true then (-1 : ℂ) else 1 := by
    cases version <;> simp
  rw [Complex.ofReal_mul, sg, mul_left_comm Complex.I]
  congr 1
  rw [Complex.ofReal_mul, mul_left_comm Complex.I, Complex.ofReal_sum, Finset.mul_sum _ _ Complex.I]
  refine congrArg (fun x : ℂ => (u.core.T : ℂ) * x) (Finset.sum_congr rfl fun n _ => ?_)
  rw [Complex.ofReal_mul]
  ring

theorem realPart_embS (σ : SF ℝ) (a b : ℤ) : realPart ((0.5 : ℝ) • (embS σ a + embS σ b)) = (0 : ℂ) := by
  show realPart ((0.5 : ℝ) • (Complex.I * (σ a : ℂ) + Complex.I * (σ b : ℂ))) = (0 : ℂ)
  have e : star (Complex.I * (σ a : ℂ) + Complex.I * (σ b : ℂ)) = -(Complex.I * (σ a : ℂ) + Complex.I * (σ b : ℂ)) := by
    simp; ring
  rw [realPart, star_smul, e, star_trivial, smul_neg, add_neg_cancel, smul_zero]

theorem closed_same (h : SameSetup u u') (bare Γ : VF ℝ) (σ : SF ℝ) (c : Ch) :
    closed u' (embV bare) (shift (u.U / 2) (embS σ)) (embV Γ) c = embS (closed u bare σ Γ c) := by
  have hm : meanBub u' (embV bare) (embV Γ) (pair u'.core u'.Λ (shift (u.U / 2) (embS σ))) =
      embV (meanBub u bare Γ (pair u.core u.Λ σ)) := by
    simp only [meanBub, bub_same h, LinearMap.map_smul, LinearMap.map_add]
  simp only [closed, hm, loopOne_same h, split, h.ph, h.ph', if_true, Bool.false_eq_true, if_false, realPart_embS, sub_zero]

/-- C160: the part of the self-energy that depends on frequency and the vertex are the same with real and with complex
values. -/
theorem c160_storage_partial (h : SameSetup u u') (first : Bool) (bare V : VF ℝ) (σ : SF ℝ) :
    dynamic first u' (embV bare) (shift (u.U / 2) (embS σ)) (embV V) = embS (dynamic first u bare σ V) ∧
    computeBSE u' (embV bare) (shift (u.U / 2) (embS σ)) (embV V) = embV (computeBSE u bare σ V) := by
  constructor
  · cases first
    · simp only [dynamic, Bool.false_eq_true, if_false, equation2, full_same, closed_same h, LinearMap.map_smul,
        LinearMap.map_add]
    · have e : embV bare + embV V = embV (bare + V) := (LinearMap.map_add embV bare V).symm
      simp only [dynamic, if_true, equation1, e, closed_same h]
      simp only [LinearMap.map_smul, LinearMap.map_add, LinearMap.map_sub]
  · simp only [computeBSE, full_same, others_same, ← LinearMap.map_add embV, bub_same h]
    rw [LinearMap.map_smul]

/-- C160, refuted: an iteration with complex values keeps the form `U/2 + i s` of the self-energy, but the imaginary part
`s` is not the one that the iteration with real values stores: that one is larger by `U/2`. -/
theorem c160_storage_refuted (h : SameSetup u u') (hU : u.U ≠ 0) (first : Bool) (hartree : SF ℝ → ℝ) (bare V : VF ℝ)
    (σ : SF ℝ) :
    ∃ s : SF ℝ, computeSDE first u' (fun _ => u.U / 2) (embV bare) (shift (u.U / 2) (embS σ)) (embV V) =
      shift (u.U / 2) (embS s) ∧ (∀ v, computeSDE first u hartree bare σ V v = s v + u.U / 2) ∧
      ∀ v, computeSDE first u hartree bare σ V v ≠ s v := by
  have e : ∀ v, computeSDE first u hartree bare σ V v = dynamic first u bare σ V v + u.U / 2 := by
    intro v
    simp [computeSDE, shift, h.ph]
  refine ⟨dynamic first u bare σ V, ?_, e, fun v => ?_⟩
  · simp only [computeSDE, h.ph', Bool.false_eq_true, if_false, (c160_storage_partial h first bare V σ).1]
  · rw [e]
    intro h'
    have : u.U / 2 = 0 := by linarith
    exact hU (by linarith)

/-- C160: the propagators of the code with `REG == 2` are related like this, for a level at `-U/2`. -/
theorem c160_lines (p : Propagator.Par) (U : ℝ) (he : p.eps = -(U / 2)) (Λ : ℝ) (v : ℤ) (s : ℝ) :
    (linesC .r2 p).g Λ v (((U / 2 : ℝ) : ℂ) + Complex.I * s) = -Complex.I * (linesR .r2 p).g Λ v s := by
  have hz := (c158_stored .r2 { p with eps := 0 } rfl).g Λ v s
  have e1 : (linesR .r2 { p with eps := 0 }).g Λ v s = (linesR .r2 p).g Λ v s := by
    simp [linesR, Propagator.gM2, Propagator.g0Minv]
  rw [← e1, ← hz]
  simp only [linesC, Propagator.gM2, Propagator.g0Minv, Bool.false_eq_true, if_false, he]
  congr 1
  push_cast
  ring

end
end Verif.Sde.Imag
