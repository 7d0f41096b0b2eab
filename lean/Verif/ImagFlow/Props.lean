import Verif.ImagFlow.Lemmas
import Verif.Invariant.Props
import Verif.Propagator.PropsMatsubara

/-! C158: the flow at imaginary frequencies keeps the symmetries of the state. -/
namespace Verif.ImagFlow
open Verif.Symmetries
open Verif.Freqs (Ch Fr)

section
variable {R : Type} [CommRing R] [StarRing R] [Algebra ℝ R] [StarModule ℝ R] {ph : Bool}

/-! ### Loops -/

omit [StarRing R] [Algebra ℝ R] [StarModule ℝ R] in
theorem integrand_eq (ph : Bool) (Γ : VF R) (G : ℤ → R) (v vp : ℤ) : integrand ph Γ G v vp =
    (if ph then -1 else 1) * (G vp * (Γ false .t 0 Imag.k0 ![v, vp, v, vp] * 2 + Γ false .t 1 Imag.k0 ![v, vp, v, vp])) := by
  have hl : legFun (legsR (fun w : ℤ => w / 2) .t ⟨0, vp, v⟩) = ![v, vp, v, vp] := by
    funext k; fin_cases k <;> simp [legFun, legsR]
  simp only [integrand, hl]
  cases ph <;> simp

/-- C158: the loop never fails, and it is minus the temperature times the sum over the fermionic frequencies of modulus
below `2 * POSINTRANGE` of propagator times vertex. -/
theorem c158_loop_value (u : Setup R) (Γ : VF R) (G : ℤ → R) (v : ℤ) :
    loopRes u Γ G v = .ok (loop u Γ G v) ∧ loop u Γ G v = -(u.T • ∑ n ∈ Finset.Icc (-(u.pos : ℤ)) (u.pos - 1),
      (if u.ph then -1 else 1) * (G (2 * n + 1) * (Γ false .t 0 Imag.k0 ![v, 2 * n + 1, v, 2 * n + 1] * 2 +
        Γ false .t 1 Imag.k0 ![v, 2 * n + 1, v, 2 * n + 1]))) := by
  have h : loopRes u Γ G v = .ok (-(u.T • ∑ n ∈ Finset.Icc (-(u.pos : ℤ)) (u.pos - 1), integrand u.ph Γ G v (2 * n + 1))) := by
    simp only [loopRes, (MatSum.c96_loop u.pos (integrand u.ph Γ G v)).1]; rfl
  have h2 : loop u Γ G v = -(u.T • ∑ n ∈ Finset.Icc (-(u.pos : ℤ)) (u.pos - 1), integrand u.ph Γ G v (2 * n + 1)) := by
    simp only [loop, h]
  exact ⟨by rw [h, h2], by rw [h2]; simp only [integrand_eq]⟩

/-- C158: the loop over a symmetric vertex with a propagator whose conjugate is its value at the opposite frequency is such
a self-energy; with particle-hole symmetry the stored imaginary part is odd. -/
theorem c158_loop {u : Setup R} (hu : u.ph = ph) {Γ : VF R} {G : ℤ → R}
    (hΓ : Sym ⟨false, ph, false⟩ (⟨Γ⟩ : Vertex ℤ R)) (hG : Odd ph G) : Odd ph (loop u Γ G) := by
  subst hu
  intro v
  rw [(c158_loop_value u Γ G v).2, (c158_loop_value u Γ G (-v)).2, star_neg, star_smul, star_trivial u.T, star_sum, mul_neg,
    mul_smul_comm, Finset.mul_sum]
  congr 2
  refine Finset.sum_bij' (fun n _ => -1 - n) (fun n _ => -1 - n) ?_ ?_ ?_ ?_ ?_
  · intro n hn; rw [Finset.mem_Icc] at hn ⊢; omega
  · intro n hn; rw [Finset.mem_Icc] at hn ⊢; omega
  · intro n _; ring
  · intro n _; ring
  · intro n _
    have e : 2 * (-1 - n) + 1 = -(2 * n + 1) := by ring
    have two : star (2 : R) = 2 := by
      rw [show (2 : R) = 1 + 1 by ring, star_add, star_one]
    have k : ∀ s, s < 2 → star (Γ false .t s Imag.k0 ![v, 2 * n + 1, v, 2 * n + 1]) =
        Γ false .t s Imag.k0 ![-v, -(2 * n + 1), -v, -(2 * n + 1)] := by
      intro s hs
      have := hΓ.tr rfl false .t s Imag.k0 ![-v, -(2 * n + 1), -v, -(2 * n + 1)] hs
      simp only at this
      rw [this]
      congr 2
      funext i; fin_cases i <;> simp
    have sgn : star (if u.ph = true then (-1 : R) else 1) = if u.ph = true then -1 else 1 := by
      cases u.ph <;> simp
    rw [e, star_mul', star_mul', star_add, star_mul', k 0 (by decide), k 1 (by decide), hG, two, sgn]
    ring

/-! ### The right-hand side -/

variable {o : Open R}

theorem k2_sub (ho : GoodOpen ph o) (V W : VF R) : o.k2 (V - W) = o.k2 V - o.k2 W := by
  have := ho.add (V - W) W
  rw [sub_add_cancel] at this
  rw [this, add_sub_cancel_right]

omit [CommRing R] [StarRing R] [Algebra ℝ R] [StarModule ℝ R] in
theorem mirror_mirror (V : VF R) : mirror (mirror V) = V := by funext h; simp [mirror]

omit [StarRing R] [Algebra ℝ R] [StarModule ℝ R] in
theorem mirror_add (V W : VF R) : mirror (V + W) = mirror V + mirror W := rfl

omit [StarRing R] [Algebra ℝ R] [StarModule ℝ R] in
theorem mirror_sub (V W : VF R) : mirror (V - W) = mirror V - mirror W := rfl

omit [CommRing R] [StarRing R] [Algebra ℝ R] [StarModule ℝ R] in
theorem mirror_halves (A B : VF R) : mirror (halves A B) = halves B A := by
  funext h; cases h <;> rfl

omit [CommRing R] [StarRing R] [Algebra ℝ R] [StarModule ℝ R] in
theorem halves_eq {L M : VF R} (h : mirror L = M) : halves M L = M := by
  funext b
  subst h
  cases b <;> rfl

theorem sym_k2b (ho : GoodOpen ph o) {V : VF R} (hV : Sym ⟨false, ph, false⟩ (⟨V⟩ : Vertex ℤ R)) :
    Sym ⟨false, ph, false⟩ (⟨o.k2b V⟩ : Vertex ℤ R) := Sym.mirror' (ho.sym _ (Sym.mirror' hV))

variable {u : Setup R} {Λ : ℝ} {bare : VF R} {σ : SF R} {V : VF R}

/-- What is assumed of the situation in which the right-hand side is evaluated. -/
structure Ready (ph : Bool) (u : Setup R) (o : Open R) (bare : VF R) (σ : SF R) (V : VF R) : Prop where
  flag : u.ph = ph
  lines : GoodLines ph u.lines
  op : GoodOpen ph o
  bare : GoodV ph bare
  sigma : Odd ph σ
  vertex : GoodV ph V

/-- The central part of parts that are mirror images of each other. -/
theorem central_good (h : Ready ph u o bare σ V) {L M : VF R} (hM : Sym ⟨false, ph, false⟩ (⟨M⟩ : Vertex ℤ R))
    (hm : mirror L = M) : GoodV ph (central u o Λ bare σ V L M) := by
  have hP := good_pair (Λ := Λ) h.flag h.lines h.sigma
  have hF := full_sym h.bare h.vertex
  have ho := h.op
  have e1 : centralRight u Λ bare σ V L M = bub u (full bare V) M (pair u Λ σ) := by
    rw [centralRight, mirror_halves, halves_eq hm]
  have e2 : centralLeft u Λ bare σ V L M = bub u M (full bare V) (pair u Λ σ) := by
    rw [centralLeft, halves_eq hm]
  set cr := bub u (full bare V) M (pair u Λ σ) with hcr
  set cl := bub u M (full bare V) (pair u Λ σ) with hcl
  have sr : Sym ⟨false, ph, false⟩ (⟨cr⟩ : Vertex ℤ R) := bub_sym hF hM hP
  have sl : Sym ⟨false, ph, false⟩ (⟨cl⟩ : Vertex ℤ R) := bub_sym hM hF hP
  have hmr : mirror cr = cl := mirror_bub _ _ _
  have hml : mirror cl = cr := mirror_bub _ _ _
  have sl' : Sym ⟨false, ph, false⟩ (⟨cl - o.k2 cl + o.k2 cr⟩ : Vertex ℤ R) :=
    Sym.add' (Sym.sub' sl (ho.sym _ sl)) (ho.sym _ sr)
  have sr' : Sym ⟨false, ph, false⟩ (⟨cr - o.k2b cr + o.k2b (cl - o.k2 cl + o.k2 cr)⟩ : Vertex ℤ R) :=
    Sym.add' (Sym.sub' sr (sym_k2b ho sr)) (sym_k2b ho sl')
  have m' : mirror (cl - o.k2 cl + o.k2 cr) = cr - o.k2b cr + o.k2b (cl - o.k2 cl + o.k2 cr) := by
    have a : o.k2b (cl - o.k2 cl + o.k2 cr) = mirror (o.k2 cr) := by
      unfold Open.k2b
      rw [mirror_add, mirror_sub, hml, ho.add, k2_sub ho, ho.k2b, ho.k2b, sub_zero, add_zero]
    rw [a, mirror_add, mirror_sub, hml, Open.k2b, hmr]
  unfold central
  simp only [e1, e2]
  refine GoodV.smul _ (goodV_of_mirror (Sym.add' sr' sl') ?_)
  rw [mirror_add, m', ← m', mirror_mirror, add_comm]

theorem left_right (h : Ready ph u o bare σ V) {T : VF R} (hT : GoodV ph T) :
    Sym ⟨false, ph, false⟩ (⟨(eqs u o Λ bare σ V).left T⟩ : Vertex ℤ R) ∧
    Sym ⟨false, ph, false⟩ (⟨(eqs u o Λ bare σ V).right T⟩ : Vertex ℤ R) ∧
    mirror ((eqs u o Λ bare σ V).left T) = (eqs u o Λ bare σ V).right T :=
  have hP := good_pair (Λ := Λ) h.flag h.lines h.sigma
  have hF := full_sym h.bare h.vertex
  ⟨bub_sym (others_sym hT) hF hP, bub_sym hF (others_sym hT) hP, mirror_bub _ _ _⟩

theorem sum_good {L M : VF R} (hL : Sym ⟨false, ph, false⟩ (⟨L⟩ : Vertex ℤ R))
    (hM : Sym ⟨false, ph, false⟩ (⟨M⟩ : Vertex ℤ R)) (hm : mirror L = M) : GoodV ph (L + M) :=
  goodV_of_mirror (Sym.add' hL hM) (by rw [mirror_add, hm, ← hm, mirror_mirror, add_comm])

/-- What holds between the iterations over the loop orders. -/
structure GoodLoop (ph : Bool) (s : MfRG.Loop (VF R)) : Prop where
  total : GoodV ph s.total
  T : GoodV ph s.T
  R : Sym ⟨false, ph, false⟩ (⟨s.R⟩ : Vertex ℤ R)
  mir : mirror s.L = s.R
  ctbar : GoodV ph s.ctbar

theorem body_good (h : Ready ph u o bare σ V) {s : MfRG.Loop (VF R)} (hs : GoodLoop ph s) :
    GoodLoop ph (s.body (eqs u o Λ bare σ V)) := by
  have hC := central_good (Λ := Λ) h hs.R hs.mir
  obtain ⟨l, r, m⟩ := left_right (Λ := Λ) h hs.T
  have hLR := sum_good l r m
  have hT : GoodV ph ((eqs u o Λ bare σ V).left s.T + (eqs u o Λ bare σ V).central s.L s.R +
      (eqs u o Λ bare σ V).right s.T) := by
    rw [add_right_comm]
    exact hLR.add hC
  exact ⟨hs.total.add hT, hT, r, m, hs.ctbar.add hC⟩

theorem go_good (h : Ready ph u o bare σ V) (cfg : MfRG.Cfg) :
    ∀ (n : Nat) (s : MfRG.Loop (VF R)), GoodLoop ph s → GoodLoop ph (MfRG.Loop.go (eqs u o Λ bare σ V) cfg n s)
  | 0, _, k => k
  | n + 1, s, k => by
    have hb' := body_good (Λ := Λ) h k
    simp only [MfRG.Loop.go]
    split
    · exact hb'
    · exact go_good h cfg n _ hb'

theorem Ready.real (h : Ready ph u o bare σ V) : ph = true → ∀ r : R, star r = r := h.bare.sym.real rfl

theorem pass_good (h : Ready ph u o bare σ V) (cfg : MfRG.Cfg) {dσ : SF R} (hd : Odd ph dσ) :
    GoodV ph (MfRG.vertexPass (eqs u o Λ bare σ V) cfg dσ).1 ∧ GoodV ph (MfRG.vertexPass (eqs u o Λ bare σ V) cfg dσ).2 := by
  have h1 : GoodV ph ((eqs u o Λ bare σ V).one dσ) :=
    bub_good (full_good h.bare h.vertex) (good_dpair h.flag h.lines h.sigma hd)
  obtain ⟨l, r, m⟩ := left_right (Λ := Λ) h h1
  have hT := sum_good l r m
  simp only [MfRG.vertexPass]
  split
  · split
    · have := go_good (Λ := Λ) h cfg (cfg.nloops - 2).toNat ⟨_, _, _, _, 0⟩ ⟨h1.add hT, hT, r, m, GoodV.zero h.real⟩
      exact ⟨this.total, this.ctbar⟩
    · exact ⟨h1.add hT, GoodV.zero h.real⟩
  · exact ⟨h1, GoodV.zero h.real⟩

/-- What holds between the self-energy iterations. -/
structure GoodIter (ph : Bool) (x : MfRG.Iter (VF R) (SF R)) : Prop where
  vertex : GoodV ph x.vertex
  sigma : Odd ph x.sigma
  evals : ∀ y ∈ x.evals, Odd ph y.2
  steps : ∀ y ∈ x.steps, Odd ph y.2

theorem zip_good : ∀ (a : List ℝ) (l : List (VF R × SF R)), (∀ y ∈ l, Odd ph y.2) →
    Odd ph (List.zipWith (fun (r : ℝ) x => r • x.2) a l).sum
  | [], _, _ => by simpa using Odd.zero
  | _ :: _, [], _ => by simpa using Odd.zero
  | r :: a, x :: l, h => by
    rw [List.zipWith_cons_cons, List.sum_cons]
    exact (Odd.smul r (h x (by simp))).add (zip_good a l fun y hy => h y (by simp [hy]))

theorem corr_good (h : Ready ph u o bare σ V) {C : VF R} (hC : GoodV ph C) : Odd ph (corr u Λ bare σ V C) := by
  have t := c158_loop h.flag (others_sym hC) (good_G (Λ := Λ) h.lines h.sigma)
  exact t.add (c158_loop h.flag (full_sym h.bare h.vertex) (good_E h.lines h.sigma t))

theorem oneSE_good (h : Ready ph u o bare σ V) : Odd ph (eqs u o Λ bare σ V).oneSE :=
  c158_loop h.flag (full_sym h.bare h.vertex) (good_S h.lines h.sigma Odd.zero)

theorem iter_good (h : Ready ph u o bare σ V) (cfg : MfRG.Cfg) {x : MfRG.Iter (VF R) (SF R)} (hx : GoodIter ph x) :
    GoodIter ph (x.pass (eqs u o Λ bare σ V) cfg) := by
  obtain ⟨h1, h2⟩ := pass_good (Λ := Λ) h cfg hx.sigma
  simp only [MfRG.Iter.pass]
  split
  · split
    · have hc : Odd ph ((eqs u o Λ bare σ V).oneSE + (eqs u o Λ bare σ V).corr
          (MfRG.vertexPass (eqs u o Λ bare σ V) cfg x.sigma).2) := (oneSE_good h).add (corr_good h h2)
      have he : ∀ y ∈ x.evals ++ [((MfRG.vertexPass (eqs u o Λ bare σ V) cfg x.sigma).1, (eqs u o Λ bare σ V).oneSE +
          (eqs u o Λ bare σ V).corr (MfRG.vertexPass (eqs u o Λ bare σ V) cfg x.sigma).2)], Odd ph y.2 := by
        intro y hy
        rcases List.mem_append.mp hy with h | h
        · exact hx.evals y h
        · rw [List.mem_singleton] at h; subst h; exact hc
      have hst : ∀ y ∈ x.steps ++ [((MfRG.vertexPass (eqs u o Λ bare σ V) cfg x.sigma).1, x.sigma)], Odd ph y.2 := by
        intro y hy
        rcases List.mem_append.mp hy with h | h
        · exact hx.steps y h
        · rw [List.mem_singleton] at h; subst h; exact hx.sigma
      refine ⟨h1, ?_, he, hst⟩
      obtain ⟨a, b, hab⟩ := h.op.accel _ _
      show Odd ph (o.accel _ _)
      rw [hab]
      exact (zip_good a _ he).add (zip_good b _ hst)
    · exact ⟨h1, hx.sigma, hx.evals, hx.steps⟩
  · exact ⟨h1, hx.sigma, hx.evals, hx.steps⟩

theorem iterate_good (h : Ready ph u o bare σ V) (cfg : MfRG.Cfg) (x : MfRG.Iter (VF R) (SF R)) (hx : GoodIter ph x) :
    GoodIter ph (x.go (eqs u o Λ bare σ V) cfg) := by
  induction x using MfRG.Iter.go.induct (eqs u o Λ bare σ V) cfg with
  | case1 x k ih =>
    rw [MfRG.Iter.go, dif_pos k]
    exact ih (iter_good h cfg hx)
  | case2 x k =>
    rw [MfRG.Iter.go, dif_neg k]
    exact hx

/-- C158: the right-hand side of the flow at imaginary frequencies, for any number of loops and self-energy iterations,
evaluated in a symmetric state: its vertex has crossing symmetry, conjugation symmetry and time reversal and equals its
mirror image (so that storing one half is enough), the conjugate of its self-energy is the value at the opposite
frequency. -/
theorem c158_rhs (h : Ready ph u o bare σ V) (Λ : ℝ) (cfg : MfRG.Cfg) {x : MfRG.Iter (VF R) (SF R)}
    (hx : MfRG.rhs (eqs u o Λ bare σ V) cfg = .ok x) : GoodV ph x.vertex ∧ Odd ph x.sigma := by
  have h0 : GoodIter ph ⟨0, (eqs u o Λ bare σ V).oneSE, [], [], 0, some (10 ^ 10), some 1⟩ :=
    ⟨GoodV.zero h.real, oneSE_good h, by simp, by simp⟩
  have h1 := iter_good (Λ := Λ) h cfg h0
  simp only [MfRG.rhs] at hx
  split at hx
  · split at hx
    · obtain rfl := Except.ok.inj hx
      have := iterate_good (Λ := Λ) h cfg _ h1
      exact ⟨this.vertex, this.sigma⟩
    · obtain rfl := Except.ok.inj hx
      exact ⟨h1.vertex, h1.sigma⟩
  · cases hx

/-! ### Steps of the flow -/

theorem rhs_good (hu : u.ph = ph) (hl : GoodLines ph u.lines) (ho : GoodOpen ph o) (hb : GoodV ph bare) (cfg : MfRG.Cfg)
    {y : SF R × VF R} (hy : GoodState ph y) (Λ : ℝ) : GoodState ph (rhs u o bare cfg y Λ) := by
  unfold rhs
  split
  · rename_i x hx
    have := c158_rhs ⟨hu, hl, ho, hb, hy.1, hy.2⟩ Λ cfg hx
    exact ⟨this.2, this.1⟩
  · exact ⟨Odd.zero, GoodV.zero (hb.sym.real rfl)⟩

/-- C158: every Runge-Kutta step, whatever the method and the parametrisation of the flow, leads from a symmetric state to
a symmetric state. -/
theorem c158_step (hu : u.ph = ph) (hl : GoodLines ph u.lines) (ho : GoodOpen ph o) (hb : GoodV ph bare) (cfg : MfRG.Cfg)
    (T : ODE.Tableau) (fp : ODE.FlowParam ℝ) {y d : SF R × VF R} (hy : GoodState ph y) (hd : GoodState ph d) (t h : ℝ) :
    GoodState ph (ODE.rkStep T fp (rhs u o bare cfg) y d t h).1 :=
  Invariant.step_keeps (A := GoodState ph) (B := GoodState ph)
    (fun _ _ r a b => ⟨a.1.add (b.1.smul r), a.2.add (b.2.smul r)⟩) ⟨Odd.zero, GoodV.zero (hb.sym.real rfl)⟩
    (fun _ r b => ⟨b.1.smul r, b.2.smul r⟩) (fun _ Λ a => rhs_good hu hl ho hb cfg a Λ) T fp hy hd t h

/-- C158: the flow at imaginary frequencies, for any number of steps, keeps the state symmetric. -/
theorem c158_flow (hu : u.ph = ph) (hl : GoodLines ph u.lines) (ho : GoodOpen ph o) (hb : GoodV ph bare) (cfg : MfRG.Cfg)
    (T : ODE.Tableau) (fp : ODE.FlowParam ℝ) (steps : List (ℝ × ℝ)) {y : SF R × VF R} (hy : GoodState ph y) :
    GoodState ph (flow u o bare cfg T fp steps y) := by
  unfold flow
  induction steps generalizing y with
  | nil => exact hy
  | cons s l ih => exact ih (c158_step hu hl ho hb cfg T fp hy (rhs_good hu hl ho hb cfg hy _) s.1 s.2)

end

/-! ### The propagators of the code -/

theorem par_neg (p : Propagator.Par) (Λ : ℝ) (v : ℤ) : ({ p with Lam := Λ, v := ((-v : ℤ) : ℝ) } : Propagator.Par) =
    Propagator.Par.opposite { p with Lam := Λ, v := (v : ℝ) } := by
  simp [Propagator.Par.opposite]

/-- C158: the propagators of the code satisfy the requirements, for every regulator. -/
theorem c158_lines (reg : Reg) (p : Propagator.Par) : GoodLines false (linesC reg p) := by
  have hc := fun (Λ : ℝ) (v : ℤ) (s : ℂ) => Propagator.c91_conjugation (Real.pi * p.T) { p with Lam := Λ, v := (v : ℝ) } s
  cases reg <;> refine ⟨fun Λ v s => ?_, fun Λ v s => ?_⟩ <;>
    simp only [linesC, par_neg, Bool.false_eq_true, if_false, one_mul, Complex.star_def]
  · exact (hc Λ v s).1.symm
  · exact (hc Λ v s).2.1.symm
  · exact (hc Λ v s).2.2.1.symm
  · exact (hc Λ v s).2.2.2.1.symm
  · exact (hc Λ v s).2.2.2.2.1.symm
  · exact (hc Λ v s).2.2.2.2.2.symm

end Verif.ImagFlow
