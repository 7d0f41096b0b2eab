import Verif.Invariant.Lemmas

/-! C150: the flow keeps the symmetries of the state. -/
namespace Verif.Invariant
open Verif.Symmetries Verif.Heredity Verif.Propagator MeasureTheory
open Verif.Freqs (Ch Fr legs)

variable {ph : Bool}

/-! ### Loops -/

/-- The trace over the closed legs, as a sum over Keldysh indices. -/
noncomputable def trace (Γ : VF) (G : Keldysh.Prop2 ℂ) (o i : Bool) (v vp : ℝ) : ℂ :=
  ∑ b : Bool, ∑ d : Bool, comp G d b * (2 * Γ false .t 0 ![o, b, i, d] ![v, vp, v, vp] +
    Γ false .t 1 ![o, b, i, d] ![v, vp, v, vp])

theorem row_trace (Γ : VF) (G : Keldysh.Prop2 ℂ) (v vp : ℝ) (o i : Fin 2) (c : Fin 4) (hc : c.val = 2 * i.val + o.val) :
    Loop.row false true G.matrix (fun s iK => Γ false .t s (bits iK) (legFun (legs (.ch .t) ⟨0, vp, v⟩))) c =
      trace Γ G (o == 1) (i == 1) v vp := by
  have hl : legFun (legs (.ch .t) ⟨0, vp, v⟩) = ![v, vp, v, vp] := by
    funext k; fin_cases k <;> simp [legFun, legs]
  have hb : ∀ o b i d : Fin 2, bits (Loop.leg o b i d) = ![o == 1, b == 1, i == 1, d == 1] := by decide +kernel
  rw [Loop.c92_contraction false true _ _ o i c hc]
  simp only [Loop.closeSecond, trace, hl, hb, Fin.sum_univ_two, Fintype.sum_bool, Keldysh.Prop2.matrix, comp]
  simp
  ring

/-- The value of the loop. -/
noncomputable def loopValue (Δ : ℝ) (Γ : VF) (G : ℝ → Keldysh.Prop2 ℂ) (o i : Bool) (v : ℝ) : ℂ :=
  Loop.prefactor * ∫ vp in (-Δ * 10 - |v|)..(Δ * 10 + |v|), (trace Γ (G vp) o i v vp + trace Γ (G (-vp)) o i v (-vp)) * (1/2)

theorem loop_value (Δ : ℝ) (Γ : VF) (G : ℝ → Keldysh.Prop2 ℂ) (v : ℝ) :
    (loop Δ Γ G).1 v = star (loopValue Δ Γ G true false v) ∧ (loop Δ Γ G).2 v = loopValue Δ Γ G false false v := by
  have h1 : ∀ vp, _ := fun vp => row_trace Γ (G vp) v vp 1 0 1 rfl
  have h0 : ∀ vp, _ := fun vp => row_trace Γ (G vp) v vp 0 0 0 rfl
  simp only [loop, Loop.keldyshLoop, Loop.integrand, h1, h0, loopValue]
  exact ⟨rfl, rfl⟩

theorem star_interval (f : ℝ → ℂ) (a b : ℝ) : star (∫ x in a..b, f x) = ∫ x in a..b, star (f x) := by
  simp only [intervalIntegral, star_sub]
  congr 1 <;> exact (integral_conj (f := f)).symm

theorem star_prefactor : star Loop.prefactor = -Loop.prefactor := by
  simp [Loop.prefactor, Complex.star_def, map_div₀, neg_div, div_neg]

theorem trace_star {Γ : VF} {G : ℝ → Keldysh.Prop2 ℂ} (hΓ : Sym ⟨true, ph, false⟩ (⟨Γ⟩ : Vertex ℝ ℂ)) (hG : AntiK G)
    (o i : Bool) (v vp x : ℝ) : star (trace Γ (G x) o i v vp) = sg o * sg i * trace Γ (G x) i o v vp := by
  have hf : sideFlip .t .t inOut = false := by decide
  have key : ∀ s, s < 2 → ∀ b d, star (Γ false .t s ![o, b, i, d] ![v, vp, v, vp]) =
      -(sg o * sg b * sg i * sg d) * Γ false .t s ![i, d, o, b] ![v, vp, v, vp] := by
    intro s hs b d
    have h := hΓ.conjK rfl false .t s ![i, d, o, b] ![v, vp, v, vp] hs
    simp only [comp_inOut, hf, Bool.xor_false, conjSign_sg] at h
    rw [h]
    have e : ∀ z : ℂ, -(sg o * sg b * sg i * sg d) * (-(sg i * sg d * sg o * sg b) * z) =
        (sg o * sg o) * (sg b * sg b) * (sg i * sg i) * (sg d * sg d) * z := fun z => by ring
    rw [e]
    simp only [sg_sq, one_mul]
  have two : star (2 : ℂ) = 2 := by simp
  have e : ∀ b d : Bool, star (comp (G x) d b * (2 * Γ false .t 0 ![o, b, i, d] ![v, vp, v, vp] +
      Γ false .t 1 ![o, b, i, d] ![v, vp, v, vp])) = sg o * sg i * (comp (G x) b d * (2 * Γ false .t 0 ![i, d, o, b]
        ![v, vp, v, vp] + Γ false .t 1 ![i, d, o, b] ![v, vp, v, vp])) := by
    intro b d
    rw [star_mul', star_add, star_mul', two, comp_star hG, key 0 (by decide), key 1 (by decide)]
    have e : ∀ g a c : ℂ, -(sg d * sg b) * g * (2 * (-(sg o * sg b * sg i * sg d) * a) + -(sg o * sg b * sg i * sg d) * c) =
        (sg b * sg b) * (sg d * sg d) * (sg o * sg i * (g * (2 * a + c))) := fun g a c => by ring
    rw [e]
    simp only [sg_sq, one_mul]
  unfold trace
  simp only [star_sum, e]
  rw [Finset.sum_comm]
  simp only [Finset.mul_sum]

theorem trace_ph {Γ : VF} {G : ℝ → Keldysh.Prop2 ℂ} (hΓ : Sym ⟨true, true, false⟩ (⟨Γ⟩ : Vertex ℝ ℂ)) (hG : AntiK G)
    (hp : PH G) (o i : Bool) (v vp : ℝ) :
    star (trace Γ (G vp) o i v vp) = -(sg o * sg i) * trace Γ (G (-vp)) o i (-v) (-vp) := by
  have key : ∀ s, s < 2 → ∀ b d, star (Γ false .t s ![o, b, i, d] ![v, vp, v, vp]) =
      -(sg o * sg b * sg i * sg d) * Γ false .t s ![o, b, i, d] ![-v, -vp, -v, -vp] := by
    intro s hs b d
    have h := hΓ.ph rfl rfl false .t s ![o, b, i, d] ![-v, -vp, -v, -vp] hs
    simp only [neg_vec, neg_neg, conjSign_sg] at h
    rw [h]
    have e : ∀ z : ℂ, -(sg o * sg b * sg i * sg d) * (-(sg o * sg b * sg i * sg d) * z) =
        (sg o * sg o) * (sg b * sg b) * (sg i * sg i) * (sg d * sg d) * z := fun z => by ring
    rw [e]
    simp only [sg_sq, one_mul]
  have two : star (2 : ℂ) = 2 := by simp
  unfold trace
  simp only [star_sum, Finset.mul_sum]
  refine Fintype.sum_congr _ _ fun b => Fintype.sum_congr _ _ fun d => ?_
  rw [star_mul', star_add, star_mul', two, comp_ph hG hp, key 0 (by decide), key 1 (by decide)]
  have e : ∀ g a c : ℂ, sg d * sg b * g * (2 * (-(sg o * sg b * sg i * sg d) * a) + -(sg o * sg b * sg i * sg d) * c) =
      (sg b * sg b) * (sg d * sg d) * (-(sg o * sg i) * (g * (2 * a + c))) := fun g a c => by ring
  rw [e]
  simp only [sg_sq, one_mul]

/-- C150: the loop over a symmetric vertex with a propagator that has the properties of a propagator is a self-energy with
anti-Hermitian Keldysh component; with particle-hole symmetry it is particle-hole symmetric. -/
theorem c150_loop {Γ : VF} {G : ℝ → Keldysh.Prop2 ℂ} (hΓ : Sym ⟨true, ph, false⟩ (⟨Γ⟩ : Vertex ℝ ℂ)) (hG : AntiK G)
    (hp : ph = true → PH G) (Δ : ℝ) : GoodS ph 0 (loop Δ Γ G) := by
  have hstar : ∀ v, star (loopValue Δ Γ G false false v) = -loopValue Δ Γ G false false v := by
    intro v
    unfold loopValue
    rw [star_mul', star_prefactor, star_interval, neg_mul]
    congr 2
    refine intervalIntegral.integral_congr fun x _ => ?_
    have half : star (1/2 : ℂ) = 1/2 := by simp
    simp only [star_mul', star_add, half, trace_star hΓ hG, sg]
    simp
  refine ⟨fun v => ?_, fun h v => ?_⟩
  · rw [(loop_value Δ Γ G v).2]; exact hstar v
  · subst h
    have hPH := hp rfl
    have key : ∀ o i, star (loopValue Δ Γ G o i v) = sg o * sg i * loopValue Δ Γ G o i (-v) := by
      intro o i
      unfold loopValue
      rw [star_mul', star_prefactor, star_interval, abs_neg, mul_left_comm, neg_mul, ← mul_neg]
      congr 1
      rw [← intervalIntegral.integral_neg, ← intervalIntegral.integral_const_mul]
      refine intervalIntegral.integral_congr fun x _ => ?_
      have half : star (1/2 : ℂ) = 1/2 := by simp
      have t := trace_ph hΓ hG hPH o i v (-x)
      rw [neg_neg] at t
      simp only [star_mul', star_add, half, trace_ph hΓ hG hPH o i v x, t]
      ring
    constructor
    · rw [(loop_value Δ Γ G v).1, (loop_value Δ Γ G (-v)).1, star_star]
      have h2 : loopValue Δ Γ G true false (-v) = -star (loopValue Δ Γ G true false v) := by
        rw [key true false]; simp [sg]
      rw [h2]; simp
    · rw [(loop_value Δ Γ G v).2, (loop_value Δ Γ G (-v)).2]
      have := key false false
      rw [hstar v] at this
      rw [this]; simp [sg]

/-! ### The right-hand side -/

theorem k2_zero {o : Open} (ho : GoodOpen ph o) : o.k2 0 = 0 := by
  have := ho.add 0 0
  rw [add_zero] at this
  exact left_eq_add.mp this

theorem k2_sub {o : Open} (ho : GoodOpen ph o) (V W : VF) : o.k2 (V - W) = o.k2 V - o.k2 W := by
  have := ho.add (V - W) W
  rw [sub_add_cancel] at this
  rw [this, add_sub_cancel_right]

theorem mirror_mirror (V : VF) : mirror (mirror V) = V := by funext h; simp [mirror]

theorem mirror_add (V W : VF) : mirror (V + W) = mirror V + mirror W := rfl

theorem mirror_sub (V W : VF) : mirror (V - W) = mirror V - mirror W := rfl

theorem mirror_halves (A B : VF) : mirror (halves A B) = halves B A := by
  funext h; cases h <;> rfl

theorem mirror_of_same {V : VF} (h : ∀ b, V b = V false) : mirror V = V := by
  funext b; rw [mirror, h (!b), h b]

theorem sym_k2b {o : Open} (ho : GoodOpen ph o) {V : VF} (hV : Sym ⟨true, ph, false⟩ (⟨V⟩ : Vertex ℝ ℂ)) :
    Sym ⟨true, ph, false⟩ (⟨o.k2b V⟩ : Vertex ℝ ℂ) := Sym.mirror' (ho.sym _ (Sym.mirror' hV))

section
variable {o : Open} {Δ : ℝ} {p : Par} {bare : VF} {σ : SF} {V : VF}

theorem halves_eq {L R : VF} (h : mirror L = R) : halves R L = R := by
  funext b
  subst h
  cases b <;> rfl

/-- The central part of parts that are mirror images of each other. -/
theorem central_good (ho : GoodOpen ph o) (hb : GoodV ph bare) (hV : GoodV ph V) (hσ : GoodS ph p.eps σ)
    (hmu : ph = true → p.mu = 0) {L R : VF} (hR : Sym ⟨true, ph, false⟩ (⟨R⟩ : Vertex ℝ ℂ)) (hm : mirror L = R) :
    GoodV ph (central o p bare σ V L R) := by
  have hP := good_pair hσ hmu
  have hF := full_sym hb hV
  have e1 : centralRight p bare σ V L R = bub (full bare V) R (pair p σ) := by
    rw [centralRight, mirror_halves, halves_eq hm]
  have e2 : centralLeft p bare σ V L R = bub R (full bare V) (pair p σ) := by
    rw [centralLeft, halves_eq hm]
  set cr := bub (full bare V) R (pair p σ) with hcr
  set cl := bub R (full bare V) (pair p σ) with hcl
  have sr : Sym ⟨true, ph, false⟩ (⟨cr⟩ : Vertex ℝ ℂ) := bub_sym hF hR hP
  have sl : Sym ⟨true, ph, false⟩ (⟨cl⟩ : Vertex ℝ ℂ) := bub_sym hR hF hP
  have hmr : mirror cr = cl := mirror_bub _ _ _
  have hml : mirror cl = cr := mirror_bub _ _ _
  have sl' : Sym ⟨true, ph, false⟩ (⟨cl - o.k2 cl + o.k2 cr⟩ : Vertex ℝ ℂ) :=
    Sym.add' (Sym.sub' sl (ho.sym _ sl)) (ho.sym _ sr)
  have sr' : Sym ⟨true, ph, false⟩ (⟨cr - o.k2b cr + o.k2b (cl - o.k2 cl + o.k2 cr)⟩ : Vertex ℝ ℂ) :=
    Sym.add' (Sym.sub' sr (sym_k2b ho sr)) (sym_k2b ho sl')
  have m' : mirror (cl - o.k2 cl + o.k2 cr) = cr - o.k2b cr + o.k2b (cl - o.k2 cl + o.k2 cr) := by
    have a : o.k2b (cl - o.k2 cl + o.k2 cr) = mirror (o.k2 cr) := by
      unfold Open.k2b
      rw [mirror_add, mirror_sub, hml, ho.add, k2_sub ho, ho.k2b, ho.k2b, sub_zero, add_zero]
    rw [a, mirror_add, mirror_sub, hml, Open.k2b, hmr]
  unfold central
  simp only [e1, e2]
  refine GoodV.smul _ (goodV_of_mirror (Sym.add' sr' sl') ?_)
  rw [mirror_add, m', ← m', mirror_mirror, add_comm]

theorem left_right (hb : GoodV ph bare) (hV : GoodV ph V) (hσ : GoodS ph p.eps σ) (hmu : ph = true → p.mu = 0) {T : VF}
    (hT : GoodV ph T) :
    Sym ⟨true, ph, false⟩ (⟨(eqs o Δ p bare σ V).left T⟩ : Vertex ℝ ℂ) ∧
    Sym ⟨true, ph, false⟩ (⟨(eqs o Δ p bare σ V).right T⟩ : Vertex ℝ ℂ) ∧
    mirror ((eqs o Δ p bare σ V).left T) = (eqs o Δ p bare σ V).right T :=
  have hP := good_pair hσ hmu
  ⟨bub_sym (others_sym hT) (full_sym hb hV) hP, bub_sym (full_sym hb hV) (others_sym hT) hP, mirror_bub _ _ _⟩

theorem sum_good {L R : VF} (hL : Sym ⟨true, ph, false⟩ (⟨L⟩ : Vertex ℝ ℂ)) (hR : Sym ⟨true, ph, false⟩ (⟨R⟩ : Vertex ℝ ℂ))
    (hm : mirror L = R) : GoodV ph (L + R) :=
  goodV_of_mirror (Sym.add' hL hR) (by rw [mirror_add, hm, ← hm, mirror_mirror, add_comm])

/-- What holds between the iterations over the loop orders. -/
structure GoodLoop (ph : Bool) (s : MfRG.Loop VF) : Prop where
  total : GoodV ph s.total
  T : GoodV ph s.T
  R : Sym ⟨true, ph, false⟩ (⟨s.R⟩ : Vertex ℝ ℂ)
  mir : mirror s.L = s.R
  ctbar : GoodV ph s.ctbar

theorem body_good (ho : GoodOpen ph o) (hb : GoodV ph bare) (hV : GoodV ph V) (hσ : GoodS ph p.eps σ)
    (hmu : ph = true → p.mu = 0) {s : MfRG.Loop VF} (hs : GoodLoop ph s) : GoodLoop ph (s.body (eqs o Δ p bare σ V)) := by
  have hC := central_good ho hb hV hσ hmu hs.R hs.mir
  obtain ⟨l, r, m⟩ := left_right (o := o) (Δ := Δ) hb hV hσ hmu hs.T
  have hLR := sum_good l r m
  have hT : GoodV ph ((eqs o Δ p bare σ V).left s.T + (eqs o Δ p bare σ V).central s.L s.R +
      (eqs o Δ p bare σ V).right s.T) := by
    rw [add_right_comm]
    exact hLR.add hC
  exact ⟨hs.total.add hT, hT, r, m, hs.ctbar.add hC⟩

theorem go_good (ho : GoodOpen ph o) (hb : GoodV ph bare) (hV : GoodV ph V) (hσ : GoodS ph p.eps σ)
    (hmu : ph = true → p.mu = 0) (cfg : MfRG.Cfg) :
    ∀ (n : Nat) (s : MfRG.Loop VF), GoodLoop ph s → GoodLoop ph (MfRG.Loop.go (eqs o Δ p bare σ V) cfg n s)
  | 0, _, h => h
  | n + 1, s, h => by
    have hb' := body_good (Δ := Δ) ho hb hV hσ hmu h
    simp only [MfRG.Loop.go]
    split
    · exact hb'
    · exact go_good ho hb hV hσ hmu cfg n _ hb'

theorem pass_good (ho : GoodOpen ph o) (hb : GoodV ph bare) (hV : GoodV ph V) (hσ : GoodS ph p.eps σ)
    (hmu : ph = true → p.mu = 0) (cfg : MfRG.Cfg) {dσ : SF} (hd : GoodS ph 0 dσ) :
    GoodV ph (MfRG.vertexPass (eqs o Δ p bare σ V) cfg dσ).1 ∧ GoodV ph (MfRG.vertexPass (eqs o Δ p bare σ V) cfg dσ).2 := by
  have h1 : GoodV ph ((eqs o Δ p bare σ V).one dσ) := bub_good (full_good hb hV) (good_dpair hσ hd hmu)
  obtain ⟨l, r, m⟩ := left_right (o := o) (Δ := Δ) hb hV hσ hmu h1
  have hT := sum_good l r m
  simp only [MfRG.vertexPass]
  split
  · split
    · have := go_good (Δ := Δ) ho hb hV hσ hmu cfg (cfg.nloops - 2).toNat ⟨_, _, _, _, 0⟩ ⟨h1.add hT, hT, r, m, GoodV.zero⟩
      exact ⟨this.total, this.ctbar⟩
    · exact ⟨h1.add hT, GoodV.zero⟩
  · exact ⟨h1, GoodV.zero⟩

/-- What holds between the self-energy iterations. -/
structure GoodIter (ph : Bool) (x : MfRG.Iter VF SF) : Prop where
  vertex : GoodV ph x.vertex
  sigma : GoodS ph 0 x.sigma
  evals : ∀ y ∈ x.evals, GoodS ph 0 y.2
  steps : ∀ y ∈ x.steps, GoodS ph 0 y.2

theorem zip_good : ∀ (a : List ℝ) (l : List (VF × SF)), (∀ y ∈ l, GoodS ph 0 y.2) →
    GoodS ph 0 (List.zipWith (fun (r : ℝ) x => r • x.2) a l).sum
  | [], _, _ => by simpa using GoodS.zero
  | _ :: _, [], _ => by simpa using GoodS.zero
  | r :: a, x :: l, h => by
    rw [List.zipWith_cons_cons, List.sum_cons]
    exact (GoodS.smul r (h x (by simp))).add (zip_good a l fun y hy => h y (by simp [hy]))

theorem corr_good (hb : GoodV ph bare) (hV : GoodV ph V) (hσ : GoodS ph p.eps σ) (hmu : ph = true → p.mu = 0) {C : VF}
    (hC : GoodV ph C) : GoodS ph 0 (corr Δ p bare σ V C) := by
  have g := good_G hσ hmu
  have t := c150_loop (others_sym hC) g.1 g.2 Δ
  have e := good_E hσ t hmu
  exact t.add (c150_loop (full_sym hb hV) e.1 e.2 Δ)

theorem oneSE_good (hb : GoodV ph bare) (hV : GoodV ph V) (hσ : GoodS ph p.eps σ) (hmu : ph = true → p.mu = 0) :
    GoodS ph 0 (eqs o Δ p bare σ V).oneSE := by
  have e := good_S hσ (GoodS.zero (ph := ph)) hmu
  exact c150_loop (full_sym hb hV) e.1 e.2 Δ

theorem iter_good (ho : GoodOpen ph o) (hb : GoodV ph bare) (hV : GoodV ph V) (hσ : GoodS ph p.eps σ)
    (hmu : ph = true → p.mu = 0) (cfg : MfRG.Cfg) {x : MfRG.Iter VF SF} (hx : GoodIter ph x) :
    GoodIter ph (x.pass (eqs o Δ p bare σ V) cfg) := by
  obtain ⟨h1, h2⟩ := pass_good (Δ := Δ) ho hb hV hσ hmu cfg hx.sigma
  simp only [MfRG.Iter.pass]
  split
  · split
    · have hc : GoodS ph 0 ((eqs o Δ p bare σ V).oneSE + (eqs o Δ p bare σ V).corr
          (MfRG.vertexPass (eqs o Δ p bare σ V) cfg x.sigma).2) := (oneSE_good hb hV hσ hmu).add (corr_good hb hV hσ hmu h2)
      have he : ∀ y ∈ x.evals ++ [((MfRG.vertexPass (eqs o Δ p bare σ V) cfg x.sigma).1, (eqs o Δ p bare σ V).oneSE +
          (eqs o Δ p bare σ V).corr (MfRG.vertexPass (eqs o Δ p bare σ V) cfg x.sigma).2)], GoodS ph 0 y.2 := by
        intro y hy
        rcases List.mem_append.mp hy with h | h
        · exact hx.evals y h
        · rw [List.mem_singleton] at h; subst h; exact hc
      have hst : ∀ y ∈ x.steps ++ [((MfRG.vertexPass (eqs o Δ p bare σ V) cfg x.sigma).1, x.sigma)], GoodS ph 0 y.2 := by
        intro y hy
        rcases List.mem_append.mp hy with h | h
        · exact hx.steps y h
        · rw [List.mem_singleton] at h; subst h; exact hx.sigma
      refine ⟨h1, ?_, he, hst⟩
      obtain ⟨a, b, hab⟩ := ho.accel _ _
      show GoodS ph 0 (o.accel _ _)
      rw [hab]
      exact (zip_good a _ he).add (zip_good b _ hst)
    · exact ⟨h1, hx.sigma, hx.evals, hx.steps⟩
  · exact ⟨h1, hx.sigma, hx.evals, hx.steps⟩

theorem iterate_good (ho : GoodOpen ph o) (hb : GoodV ph bare) (hV : GoodV ph V) (hσ : GoodS ph p.eps σ)
    (hmu : ph = true → p.mu = 0) (cfg : MfRG.Cfg) (x : MfRG.Iter VF SF) (hx : GoodIter ph x) :
    GoodIter ph (x.go (eqs o Δ p bare σ V) cfg) := by
  induction x using MfRG.Iter.go.induct (eqs o Δ p bare σ V) cfg with
  | case1 x h ih =>
    rw [MfRG.Iter.go, dif_pos h]
    exact ih (iter_good ho hb hV hσ hmu cfg hx)
  | case2 x h =>
    rw [MfRG.Iter.go, dif_neg h]
    exact hx

end

/-- C150: the right-hand side of the flow, for any number of loops and self-energy iterations, evaluated in a symmetric
state: its vertex has crossing, conjugation and particle-hole symmetry and equals its mirror image (so that storing one
half is enough), its self-energy has anti-Hermitian Keldysh component and is particle-hole symmetric. -/
theorem c150_rhs {o : Open} {Δ : ℝ} {p : Par} {bare : VF} {σ : SF} {V : VF} (ho : GoodOpen ph o) (hb : GoodV ph bare)
    (hV : GoodV ph V) (hσ : GoodS ph p.eps σ) (hmu : ph = true → p.mu = 0) (cfg : MfRG.Cfg) {x : MfRG.Iter VF SF}
    (hx : MfRG.rhs (eqs o Δ p bare σ V) cfg = .ok x) : GoodV ph x.vertex ∧ GoodS ph 0 x.sigma := by
  have h0 : GoodIter ph ⟨0, (eqs o Δ p bare σ V).oneSE, [], [], 0, some (10 ^ 10), some 1⟩ :=
    ⟨GoodV.zero, oneSE_good (o := o) (Δ := Δ) hb hV hσ hmu, by simp, by simp⟩
  have h1 := iter_good (Δ := Δ) ho hb hV hσ hmu cfg h0
  simp only [MfRG.rhs] at hx
  split at hx
  · split at hx
    · obtain rfl := Except.ok.inj hx
      have := iterate_good (Δ := Δ) ho hb hV hσ hmu cfg _ h1
      exact ⟨this.vertex, this.sigma⟩
    · obtain rfl := Except.ok.inj hx
      exact ⟨h1.vertex, h1.sigma⟩
  · cases hx

/-! ### Steps of the flow -/

section Step
variable {Y : Type} [AddCommGroup Y] [Module ℝ Y] {A B : Y → Prop}

theorem fold_keeps (hAB : ∀ y k (r : ℝ), A y → B k → A (y + r • k)) (h0 : B 0) (k : List Y) (hk : ∀ x ∈ k, B x)
    (c : Nat → ℝ) : ∀ (l : List Nat) (y : Y), A y → A (l.foldl (fun s i => s + c i • k.getD i 0) y)
  | [], _, hy => hy
  | i :: l, y, hy => by
    refine fold_keeps hAB h0 k hk c l _ (hAB _ _ _ hy ?_)
    by_cases h : i < k.length
    · rw [List.getD, List.getElem?_eq_getElem h]; exact hk _ (List.getElem_mem h)
    · rw [List.getD, List.getElem?_eq_none (by omega)]; exact h0

theorem stages_keep (hAB : ∀ y k (r : ℝ), A y → B k → A (y + r • k)) (h0 : B 0) (hs : ∀ k (r : ℝ), B k → B (r • k))
    {f : Y → ℝ → Y} (hf : ∀ y Λ, A y → B (f y Λ)) (T : ODE.Tableau) (fp : ODE.FlowParam ℝ) {y : Y} (hy : A y) (t h : ℝ) :
    ∀ (n : Nat) (k : List Y), (∀ x ∈ k, B x) → ∀ x ∈ ODE.stageLoop T fp f y t h n k, B x
  | 0, _, hk => hk
  | n + 1, k, hk => by
    refine stages_keep hAB h0 hs hf T fp hy t h n _ fun x hx => ?_
    rcases List.mem_append.mp hx with h' | h'
    · exact hk x h'
    · rw [List.mem_singleton] at h'
      subst h'
      exact hs _ _ (hf _ _ (fold_keeps hAB h0 k hk _ _ _ hy))

theorem step_keeps (hAB : ∀ y k (r : ℝ), A y → B k → A (y + r • k)) (h0 : B 0) (hs : ∀ k (r : ℝ), B k → B (r • k))
    {f : Y → ℝ → Y} (hf : ∀ y Λ, A y → B (f y Λ)) (T : ODE.Tableau) (fp : ODE.FlowParam ℝ) {y d : Y} (hy : A y) (hd : B d)
    (t h : ℝ) : A (ODE.rkStep T fp f y d t h).1 :=
  fold_keeps hAB h0 _ (stages_keep hAB h0 hs hf T fp hy t h _ _ fun x hx => by
    rw [List.mem_singleton] at hx; subst hx; exact hs _ _ hd) _ _ _ hy

end Step

/-- The symmetric states. -/
def GoodState (ph : Bool) (e : ℝ) (y : SF × VF) : Prop := GoodS ph e y.1 ∧ GoodV ph y.2

theorem rhs_good {o : Open} {Δ : ℝ → ℝ} {p : Par} {bare : VF} (ho : GoodOpen ph o) (hb : GoodV ph bare)
    (hmu : ph = true → p.mu = 0) (cfg : MfRG.Cfg) {y : SF × VF} (hy : GoodState ph p.eps y) (Λ : ℝ) :
    GoodState ph 0 (rhs o Δ p bare cfg y Λ) := by
  unfold rhs
  split
  · rename_i x hx
    have := c150_rhs (p := { p with Lam := Λ }) ho hb hy.2 hy.1 hmu cfg hx
    exact ⟨this.2, this.1⟩
  · exact ⟨GoodS.zero, GoodV.zero⟩

/-- C150: every Runge-Kutta step, whatever the method and the parametrisation of the flow, leads from a symmetric state to
a symmetric state. -/
theorem c150_step {o : Open} {Δ : ℝ → ℝ} {p : Par} {bare : VF} (ho : GoodOpen ph o) (hb : GoodV ph bare)
    (hmu : ph = true → p.mu = 0) (cfg : MfRG.Cfg) (T : ODE.Tableau) (fp : ODE.FlowParam ℝ) {y d : SF × VF}
    (hy : GoodState ph p.eps y) (hd : GoodState ph 0 d) (t h : ℝ) :
    GoodState ph p.eps (ODE.rkStep T fp (rhs o Δ p bare cfg) y d t h).1 :=
  step_keeps (A := GoodState ph p.eps) (B := GoodState ph 0)
    (fun _ _ r a b => ⟨a.1.add (b.1.smul r), a.2.add (b.2.smul r)⟩) ⟨GoodS.zero, GoodV.zero⟩
    (fun _ r b => ⟨b.1.smul r, b.2.smul r⟩) (fun _ Λ a => rhs_good ho hb hmu cfg a Λ) T fp hy hd t h

/-- C150: the flow, for any number of steps, keeps the state symmetric. -/
theorem c150_flow {o : Open} {Δ : ℝ → ℝ} {p : Par} {bare : VF} (ho : GoodOpen ph o) (hb : GoodV ph bare)
    (hmu : ph = true → p.mu = 0) (cfg : MfRG.Cfg) (T : ODE.Tableau) (fp : ODE.FlowParam ℝ) (steps : List (ℝ × ℝ))
    {y : SF × VF} (hy : GoodState ph p.eps y) : GoodState ph p.eps (flow o Δ p bare cfg T fp steps y) := by
  unfold flow
  induction steps generalizing y with
  | nil => exact hy
  | cons s l ih => exact ih (c150_step ho hb hmu cfg T fp hy (rhs_good ho hb hmu cfg hy _) s.1 s.2)

end Verif.Invariant
