import Verif.ImagFlow.Props
import Mathlib.Algebra.Group.Prod

/-! C158: with particle-hole symmetry the code stores imaginary parts as real numbers. The flow of these real numbers is the
flow of the complex ones. -/
namespace Verif.ImagFlow
open Verif.Symmetries
open Verif.Freqs (Ch Fr)

/-! ### Diagrams that correspond to each other give corresponding right-hand sides -/

section Natural
variable {V S V' S' : Type} [AddCommGroup V] [AddCommGroup S] [AddCommGroup V'] [AddCommGroup S']

/-- The diagrams of two representations of the same quantities. -/
structure Same (f : V →+ V') (g : S →+ S') (E : MfRG.Eqs V S) (E' : MfRG.Eqs V' S') : Prop where
  oneSE : E'.oneSE = g E.oneSE
  one : ∀ x, E'.one (g x) = f (E.one x)
  left : ∀ x, E'.left (f x) = f (E.left x)
  right : ∀ x, E'.right (f x) = f (E.right x)
  central : ∀ x y, E'.central (f x) (f y) = f (E.central x y)
  reorder : ∀ x y, E'.reorder (f x, f y) = (f (E.reorder (x, y)).1, f (E.reorder (x, y)).2)
  corr : ∀ x, E'.corr (f x) = g (E.corr x)
  accel : ∀ ev st, E'.accel (ev.map (Prod.map f g)) (st.map (Prod.map f g)) = g (E.accel ev st)
  absV : ∀ x, E'.absV (f x) = E.absV x
  relV : ∀ x y, E'.relV (f x) (f y) = E.relV x y
  absS : ∀ x, E'.absS (g x) = E.absS x
  relS : ∀ x y, E'.relS (g x) (g y) = E.relS x y

variable {f : V →+ V'} {g : S →+ S'} {E : MfRG.Eqs V S} {E' : MfRG.Eqs V' S'}

/-- The variables of the loop over loop orders in the other representation. -/
def mapLoop (f : V →+ V') (s : MfRG.Loop V) : MfRG.Loop V' := ⟨f s.total, f s.T, f s.L, f s.R, f s.ctbar⟩

/-- The variables of the self-energy iteration in the other representation. -/
def mapIter (f : V →+ V') (g : S →+ S') (x : MfRG.Iter V S) : MfRG.Iter V' S' :=
  ⟨f x.vertex, g x.sigma, x.evals.map (Prod.map f g), x.steps.map (Prod.map f g), x.counter, x.abs, x.rel⟩

theorem body_same (h : Same f g E E') (s : MfRG.Loop V) : (mapLoop f s).body E' = mapLoop f (s.body E) := by
  simp only [MfRG.Loop.body, mapLoop, h.central, h.left, h.right, h.reorder, map_add]

theorem go_same (h : Same f g E E') (c : MfRG.Cfg) :
    ∀ (n : Nat) (s : MfRG.Loop V), MfRG.Loop.go E' c n (mapLoop f s) = mapLoop f (MfRG.Loop.go E c n s)
  | 0, _ => rfl
  | n + 1, s => by
    have hd : (mapLoop f (s.body E)).done E' c = (s.body E).done E c := by
      simp only [MfRG.Loop.done, mapLoop, h.absV, h.relV]
    simp only [MfRG.Loop.go, body_same h, hd]
    split
    · rfl
    · exact go_same h c n _

theorem vertexPass_same (h : Same f g E E') (c : MfRG.Cfg) (x : S) :
    MfRG.vertexPass E' c (g x) = (f (MfRG.vertexPass E c x).1, f (MfRG.vertexPass E c x).2) := by
  have key := go_same h c (c.nloops - 2).toNat ⟨E.one x + (E.left (E.one x) + E.right (E.one x)),
    E.left (E.one x) + E.right (E.one x), (E.reorder (E.left (E.one x), E.right (E.one x))).1,
    (E.reorder (E.left (E.one x), E.right (E.one x))).2, 0⟩
  simp only [mapLoop, map_add, map_zero] at key
  simp only [MfRG.vertexPass, h.one, h.left, h.right, h.reorder]
  split
  · split
    · rw [key]
    · simp only [map_add, map_zero]
  · simp only [map_zero]

theorem pass_same (h : Same f g E E') (c : MfRG.Cfg) (x : MfRG.Iter V S) :
    (mapIter f g x).pass E' c = mapIter f g (x.pass E c) := by
  have hv := vertexPass_same h c x.sigma
  simp only [MfRG.Iter.pass, mapIter, hv, h.corr, h.oneSE]
  split
  · split
    · have he : x.evals.map (Prod.map f g) ++ [(f (MfRG.vertexPass E c x.sigma).1,
          g E.oneSE + g (E.corr (MfRG.vertexPass E c x.sigma).2))] =
          (x.evals ++ [((MfRG.vertexPass E c x.sigma).1, E.oneSE + E.corr (MfRG.vertexPass E c x.sigma).2)]).map
            (Prod.map f g) := by simp
      have hs : x.steps.map (Prod.map f g) ++ [(f (MfRG.vertexPass E c x.sigma).1, g x.sigma)] =
          (x.steps ++ [((MfRG.vertexPass E c x.sigma).1, x.sigma)]).map (Prod.map f g) := by simp
      rw [he, hs, h.accel, ← map_sub, h.absS, h.relS]
    · rfl
  · rfl

theorem iterate_same (h : Same f g E E') (c : MfRG.Cfg) (x : MfRG.Iter V S) :
    (mapIter f g x).go E' c = mapIter f g (x.go E c) := by
  induction x using MfRG.Iter.go.induct E c with
  | case1 x k ih =>
    have k' : (mapIter f g x).again c = true := k
    rw [MfRG.Iter.go, dif_pos k', pass_same h, ih]
    conv_rhs => rw [MfRG.Iter.go, dif_pos k]
  | case2 x k =>
    have k' : ¬ (mapIter f g x).again c = true := k
    rw [MfRG.Iter.go, dif_neg k', MfRG.Iter.go, dif_neg k]

theorem rhs_same (h : Same f g E E') (c : MfRG.Cfg) : MfRG.rhs E' c = (MfRG.rhs E c).map (mapIter f g) := by
  have h0 : (⟨0, E'.oneSE, [], [], 0, some (10 ^ 10), some 1⟩ : MfRG.Iter V' S') =
      mapIter f g ⟨0, E.oneSE, [], [], 0, some (10 ^ 10), some 1⟩ := by simp [mapIter, h.oneSE]
  simp only [MfRG.rhs, h0, pass_same h, iterate_same h]
  split
  · split <;> rfl
  · rfl

end Natural

/-! ### Steps in two representations -/

section Step
variable {Y Y' : Type} [AddCommGroup Y] [Module ℝ Y] [AddCommGroup Y'] [Module ℝ Y'] (φ : Y →ₗ[ℝ] Y')

theorem fold_same (k : List Y) (c : Nat → ℝ) : ∀ (l : List Nat) (y : Y),
    l.foldl (fun s i => s + c i • (k.map φ).getD i 0) (φ y) = φ (l.foldl (fun s i => s + c i • k.getD i 0) y)
  | [], _ => rfl
  | i :: l, y => by
    have : (k.map φ).getD i 0 = φ (k.getD i 0) := by
      simp only [List.getD, List.getElem?_map]
      cases k[i]? <;> simp
    simp only [List.foldl_cons, this]
    rw [← map_smul, ← map_add, fold_same k c l]

theorem stages_same {F : Y → ℝ → Y} {F' : Y' → ℝ → Y'} (h : ∀ y Λ, F' (φ y) Λ = φ (F y Λ)) (T : ODE.Tableau)
    (fp : ODE.FlowParam ℝ) (y : Y) (t s : ℝ) : ∀ (n : Nat) (k : List Y),
    ODE.stageLoop T fp F' (φ y) t s n (k.map φ) = (ODE.stageLoop T fp F y t s n k).map φ
  | 0, _ => rfl
  | n + 1, k => by
    simp only [ODE.stageLoop, List.length_map]
    rw [← stages_same h T fp y t s n]
    congr 1
    simp only [List.map_append, List.map_cons, List.map_nil, map_smul]
    congr 3
    rw [← h]
    congr 1
    exact fold_same φ k _ _ y

theorem step_same {F : Y → ℝ → Y} {F' : Y' → ℝ → Y'} (h : ∀ y Λ, F' (φ y) Λ = φ (F y Λ)) (T : ODE.Tableau)
    (fp : ODE.FlowParam ℝ) (y d : Y) (t s : ℝ) :
    (ODE.rkStep T fp F' (φ y) (φ d) t s).1 = φ (ODE.rkStep T fp F y d t s).1 := by
  have := stages_same φ h T fp y t s (T.stages - 1) [fp.dlam t • d]
  simp only [List.map_cons, List.map_nil, map_smul] at this
  simp only [ODE.rkStep, ODE.slopes, this, ODE.combine, List.length_map]
  exact fold_same φ _ _ _ y

end Step

/-! ### Real and complex values -/

/-- The complex vertex of real values. -/
def embV : VF ℝ →ₗ[ℝ] VF ℂ where
  toFun V h c s α ν := V h c s α ν
  map_add' V W := by funext h c s α ν; simp
  map_smul' r V := by funext h c s α ν; simp

/-- The complex self-energy of a stored imaginary part. -/
noncomputable def embS : SF ℝ →ₗ[ℝ] SF ℂ where
  toFun σ v := Complex.I * σ v
  map_add' σ τ := by funext v; simp [mul_add]
  map_smul' r σ := by funext v; simp [mul_left_comm]

/-- The complex state. -/
noncomputable def emb : SF ℝ × VF ℝ →ₗ[ℝ] SF ℂ × VF ℂ := embS.prodMap embV

/-- Propagators of which the real version stores minus the imaginary part. -/
structure Stored (l : Lines ℝ) (m : Lines ℂ) : Prop where
  g : ∀ Λ v (s : ℝ), m.g Λ v (Complex.I * s) = -Complex.I * l.g Λ v s
  s : ∀ Λ v (s : ℝ), m.s Λ v (Complex.I * s) = -Complex.I * l.s Λ v s

/-- The open parts of the model for real and for complex values. -/
structure SameOpen (o : Open ℝ) (o' : Open ℂ) : Prop where
  k2 : ∀ V, o'.k2 (embV V) = embV (o.k2 V)
  accel : ∀ ev st, o'.accel (ev.map (Prod.map embV embS)) (st.map (Prod.map embV embS)) = embS (o.accel ev st)
  absV : ∀ x, o'.absV (embV x) = o.absV x
  relV : ∀ x y, o'.relV (embV x) (embV y) = o.relV x y
  absS : ∀ x, o'.absS (embS x) = o.absS x
  relS : ∀ x y, o'.relS (embS x) (embS y) = o.relS x y

section
variable {u : Setup ℝ} {u' : Setup ℂ} {o : Open ℝ} {o' : Open ℂ}

/-- The same computation with real and with complex values. -/
structure SameSetup (u : Setup ℝ) (u' : Setup ℂ) : Prop where
  pos : u'.pos = u.pos
  T : u'.T = u.T
  ph : u.ph = true
  ph' : u'.ph = false
  lines : Stored u.lines u'.lines

theorem bubble_ofReal (N : Nat) (L M : VF ℝ) (P : ℤ → ℤ → ℝ) (P' : ℤ → ℤ → ℂ) (hP : ∀ y z, P' y z = P y z) (h : Bool) (c : Ch)
    (s : Nat) (α : Fin 4 → Bool) (ν : Fin 4 → ℤ) :
    (Imag.bubble (Imag.finiteTotal N) ⟨embV L⟩ ⟨embV M⟩ P').val h c s α ν =
      ((Imag.bubble (Imag.finiteTotal N) ⟨L⟩ ⟨M⟩ P).val h c s α ν : ℝ) := by
  have hl : ∀ (A : VF ℝ) (h : Bool) (c : Ch) (o1 o2 i1 i2 : Imag.Leg ℤ), Imag.legVal (⟨embV A⟩ : Vertex ℤ ℂ) h c o1 o2 i1 i2 =
      (Imag.legVal (⟨A⟩ : Vertex ℤ ℝ) h c o1 o2 i1 i2 : ℝ) := by
    intro A h c o1 o2 i1 i2
    simp only [Imag.legVal, embV, LinearMap.coe_mk, AddHom.coe_mk]
    split_ifs <;> simp
  have ht : ∀ (A B : VF ℝ) (c : Ch) (o1 o2 i1 i2 : Imag.Leg ℤ) (y z : ℤ) (a b : Bool),
      Imag.term (⟨embV A⟩ : Vertex ℤ ℂ) ⟨embV B⟩ P' c o1 o2 i1 i2 y z a b =
        (Imag.term (⟨A⟩ : Vertex ℤ ℝ) ⟨B⟩ P c o1 o2 i1 i2 y z a b : ℝ) := by
    intro A B c o1 o2 i1 i2 y z a b
    cases c <;> simp only [Imag.term, hl, hP]
    · push_cast; rfl
    · split_ifs <;> simp
    · push_cast; rfl
  have hs : (Imag.loopSign c : ℂ) = ((Imag.loopSign c : ℝ) : ℂ) := by cases c <;> simp [Imag.loopSign]
  have hi : ∀ (A B : VF ℝ) (o1 o2 i1 i2 : Imag.Leg ℤ) (y z : ℤ),
      Imag.inner (⟨embV A⟩ : Vertex ℤ ℂ) ⟨embV B⟩ P' c o1 o2 i1 i2 y z =
        (Imag.inner (⟨A⟩ : Vertex ℤ ℝ) ⟨B⟩ P c o1 o2 i1 i2 y z : ℝ) := by
    intro A B o1 o2 i1 i2 y z
    simp only [Imag.inner, ht]
    push_cast; rfl
  cases h <;> simp only [Imag.bubble, Bool.false_eq_true, if_false, if_true, hs, Imag.finiteTotal, hi] <;>
    split_ifs <;> push_cast <;> rfl

theorem bub_same (h : SameSetup u u') (L M : VF ℝ) (P : ℤ → ℤ → ℝ) (P' : ℤ → ℤ → ℂ) (hP : ∀ y z, P' y z = P y z) :
    bub u' (embV L) (embV M) P' = embV (bub u L M P) := by
  funext b c s α ν
  have := bubble_ofReal u.pos L M P P' hP b c s α ν
  show u'.T • (Imag.bubble (Imag.finiteTotal u'.pos) _ _ P').val b c s α ν = ((u.T • _ : ℝ) : ℂ)
  rw [h.pos, h.T, this]
  simp

theorem loop_same (h : SameSetup u u') (Γ : VF ℝ) (G : ℤ → ℝ) (G' : ℤ → ℂ) (hG : ∀ v, G' v = -Complex.I * G v) :
    loop u' (embV Γ) G' = embS (loop u Γ G) := by
  funext v
  show _ = Complex.I * ((loop u Γ G v : ℝ) : ℂ)
  rw [(c158_loop_value u' _ G' v).2, (c158_loop_value u Γ G v).2, h.pos, h.T, h.ph, h.ph']
  simp only [Bool.false_eq_true, if_false, if_true, one_mul, neg_mul, hG, embV, LinearMap.coe_mk, AddHom.coe_mk,
    Finset.sum_neg_distrib, smul_neg, neg_neg, smul_eq_mul, Complex.real_smul]
  push_cast
  rw [mul_neg, mul_neg, mul_neg, neg_neg, mul_left_comm]
  congr 1
  rw [Finset.mul_sum]
  refine Finset.sum_congr rfl fun n _ => ?_
  ring

theorem full_same (bare V : VF ℝ) : full (embV bare) (embV V) = embV (full bare V) := by
  funext b c s α ν; simp [full, embV]

theorem others_same (V : VF ℝ) : others (embV V) = embV (others V) := by
  funext b c s α ν; cases c <;> simp [others, embV]

theorem mirror_same (V : VF ℝ) : mirror (embV V) = embV (mirror V) := rfl

theorem halves_same (V W : VF ℝ) : halves (embV V) (embV W) = embV (halves V W) := by
  funext b; cases b <;> rfl

theorem lineG_same (h : SameSetup u u') (Λ : ℝ) (σ : SF ℝ) (v : ℤ) : lineG u' Λ (embS σ) v = -Complex.I * lineG u Λ σ v :=
  h.lines.g Λ v (σ v)

theorem lineE_same (h : SameSetup u u') (Λ : ℝ) (σ dσ : SF ℝ) (v : ℤ) :
    lineE u' Λ (embS σ) (embS dσ) v = -Complex.I * lineE u Λ σ dσ v := by
  have hI := Complex.I_mul_I
  simp only [lineE, lineG_same h]
  show -Complex.I * _ * (Complex.I * (dσ v : ℂ)) * (-Complex.I * _) = _
  push_cast
  linear_combination (Complex.I * ((lineG u Λ σ v : ℝ) : ℂ) * (dσ v : ℂ) * ((lineG u Λ σ v : ℝ) : ℂ)) * hI

theorem lineS_same (h : SameSetup u u') (Λ : ℝ) (σ dσ : SF ℝ) (v : ℤ) :
    lineS u' Λ (embS σ) (embS dσ) v = -Complex.I * lineS u Λ σ dσ v := by
  simp only [lineS, lineE_same h]
  have : u'.lines.s Λ v (embS σ v) = -Complex.I * u.lines.s Λ v (σ v) := h.lines.s Λ v (σ v)
  rw [this]
  push_cast; ring

theorem pair_same (h : SameSetup u u') (diff : Bool) {g s : ℤ → ℝ} {g' s' : ℤ → ℂ} (hg : ∀ v, g' v = -Complex.I * g v)
    (hs : ∀ v, s' v = -Complex.I * s v) (y z : ℤ) : Imag.pairOf u'.ph diff g' s' y z = Imag.pairOf u.ph diff g s y z := by
  have hI := Complex.I_mul_I
  simp only [Imag.pairOf, h.ph, h.ph', hg, hs, Bool.false_eq_true, if_false, if_true]
  cases diff <;> simp only [Bool.false_eq_true, if_false, if_true] <;> push_cast
  · linear_combination ((g y : ℂ) * (g z : ℂ)) * hI
  · linear_combination ((g y : ℂ) * (s z : ℂ) + (s y : ℂ) * (g z : ℂ)) * hI

theorem eqs_same (h : SameSetup u u') (ho : SameOpen o o') (Λ : ℝ) (bare : VF ℝ) (σ : SF ℝ) (V : VF ℝ) :
    Same embV.toAddMonoidHom embS.toAddMonoidHom (eqs u o Λ bare σ V) (eqs u' o' Λ (embV bare) (embS σ) (embV V)) := by
  have hpair : ∀ y z, pair u' Λ (embS σ) y z = pair u Λ σ y z := pair_same h false (lineG_same h Λ σ) (lineG_same h Λ σ)
  have hb := fun L M : VF ℝ => bub_same h L M (pair u Λ σ) (pair u' Λ (embS σ)) hpair
  refine ⟨?_, fun dσ => ?_, fun T => ?_, fun T => ?_, fun L M => ?_, fun _ _ => rfl, fun C => ?_, ho.accel, ho.absV, ho.relV,
    ho.absS, ho.relS⟩
  · show loop u' (full (embV bare) (embV V)) (lineS u' Λ (embS σ) 0) = embS _
    rw [full_same, ← map_zero embS]
    exact loop_same h _ _ _ (lineS_same h Λ σ 0)
  · show bub u' (full (embV bare) (embV V)) (full (embV bare) (embV V)) (dpair u' Λ (embS σ) (embS dσ)) = embV _
    rw [full_same]
    exact bub_same h _ _ _ _ (pair_same h true (lineG_same h Λ σ) (lineS_same h Λ σ dσ))
  · show bub u' (others (embV T)) (full (embV bare) (embV V)) (pair u' Λ (embS σ)) = embV _
    rw [full_same, others_same]
    exact hb _ _
  · show bub u' (full (embV bare) (embV V)) (others (embV T)) (pair u' Λ (embS σ)) = embV _
    rw [full_same, others_same]
    exact hb _ _
  · show central u' o' Λ (embV bare) (embS σ) (embV V) (embV L) (embV M) = embV _
    have e1 : centralRight u' Λ (embV bare) (embS σ) (embV V) (embV L) (embV M) =
        embV (centralRight u Λ bare σ V L M) := by
      simp only [centralRight, full_same, halves_same, mirror_same, hb]
    have e2 : centralLeft u' Λ (embV bare) (embS σ) (embV V) (embV L) (embV M) =
        embV (centralLeft u Λ bare σ V L M) := by
      simp only [centralLeft, full_same, halves_same, hb]
    have k : ∀ W, o'.k2b (embV W) = embV (o.k2b W) := fun W => by
      simp only [Open.k2b, mirror_same, ho.k2]
    show (0.5 : ℝ) • _ = embV ((0.5 : ℝ) • _)
    rw [map_smul]
    simp only [e1, e2, k, ho.k2, ← LinearMap.map_sub, ← LinearMap.map_add]
  · show corr u' Λ (embV bare) (embS σ) (embV V) (embV C) = embS _
    simp only [corr, full_same, others_same, loop_same h _ _ _ (lineG_same h Λ σ)]
    rw [loop_same h _ _ _ (lineE_same h Λ σ _)]
    rw [← map_add]; rfl

/-- C158: the right-hand side computed with stored imaginary parts represents the right-hand side computed with complex
numbers: the real vertex is the complex one and the self-energy is `i` times the stored number. -/
theorem c158_real_rhs (h : SameSetup u u') (ho : SameOpen o o') (bare : VF ℝ) (cfg : MfRG.Cfg) (y : SF ℝ × VF ℝ) (Λ : ℝ) :
    rhs u' o' (embV bare) cfg (emb y) Λ = emb (rhs u o bare cfg y Λ) := by
  have k := rhs_same (eqs_same h ho Λ bare y.1 y.2) cfg
  simp only [rhs]
  rw [show MfRG.rhs (eqs u' o' Λ (embV bare) (emb y).1 (emb y).2) cfg = _ from k]
  cases MfRG.rhs (eqs u o Λ bare y.1 y.2) cfg with
  | ok x => rfl
  | error e => exact (map_zero emb).symm

/-- C158: the same for the flow, for any number of steps. -/
theorem c158_real_flow (h : SameSetup u u') (ho : SameOpen o o') (bare : VF ℝ) (cfg : MfRG.Cfg) (T : ODE.Tableau)
    (fp : ODE.FlowParam ℝ) (steps : List (ℝ × ℝ)) (y : SF ℝ × VF ℝ) :
    flow u' o' (embV bare) cfg T fp steps (emb y) = emb (flow u o bare cfg T fp steps y) := by
  have k := fun y Λ => c158_real_rhs h ho bare cfg y Λ
  unfold flow
  induction steps generalizing y with
  | nil => rfl
  | cons s l ih =>
    simp only [List.foldl_cons]
    rw [← ih, k, step_same emb k]

end

theorem re_eq {z : ℂ} {x : ℝ} (h : z = x) : (z.re : ℂ) = z := by subst h; simp

/-- C158: the propagators of the code for real values store minus the imaginary part of those for complex values, at the
particle-hole symmetric point, for every regulator. -/
theorem c158_stored (reg : Reg) (p : Propagator.Par) (he : p.eps = 0) : Stored (linesR reg p) (linesC reg p) := by
  have hs := fun (Λ : ℝ) (v : ℤ) (s : ℝ) =>
    Propagator.c91_real_storage (Real.pi * p.T) { p with Lam := Λ, v := (v : ℝ) } s he
  have g0 : ∀ c q, ∃ x : ℝ, Propagator.g0Minv true c q = x := fun c q => ⟨_, by simp only [Propagator.g0Minv, if_true]; rfl⟩
  have r2 : ∀ c q (s : ℝ), ((Propagator.gM2 true c q s).re : ℂ) = Propagator.gM2 true c q s := fun c q s => by
    obtain ⟨x, hx⟩ := g0 c q
    refine re_eq (x := 1 / (x + q.Lam * 0.5 * Propagator.sign q.v - s)) ?_
    simp only [Propagator.gM2, if_true, hx]; push_cast; rfl
  have s2 : ∀ c q (s : ℝ), ((Propagator.sM2 true c q s).re : ℂ) = Propagator.sM2 true c q s := fun c q s => by
    refine re_eq (x := -0.5 * (Propagator.gM2 true c q s).re * (Propagator.gM2 true c q s).re * Propagator.sign q.v) ?_
    simp only [Propagator.sM2, if_true]; push_cast; rw [r2]
  have r3 : ∀ c q (s : ℝ), ((Propagator.gM3 true c q s).re : ℂ) = Propagator.gM3 true c q s := fun c q s => by
    obtain ⟨x, hx⟩ := g0 c q
    refine re_eq (x := 1 / (x / (q.v * q.v / (q.v * q.v + q.Lam * q.Lam)) - s)) ?_
    simp only [Propagator.gM3, hx]; push_cast; rfl
  have s3 : ∀ c q (s : ℝ), ((Propagator.sM3 true c q s).re : ℂ) = Propagator.sM3 true c q s := fun c q s => by
    obtain ⟨x, hx⟩ := g0 c q
    refine re_eq (x := -2 * q.Lam / (q.v * q.v) * (Propagator.gM3 true c q s).re * x * (Propagator.gM3 true c q s).re) ?_
    simp only [Propagator.sM3, hx]; push_cast; rw [r3]
  have r4 : ∀ c q (s : ℝ), ((Propagator.gM4 true c q s).re : ℂ) = Propagator.gM4 true c q s := fun c q s => by
    obtain ⟨x, hx⟩ := g0 c q
    refine re_eq (x := q.Lam / (x - q.Lam * s)) ?_
    simp only [Propagator.gM4, hx]; push_cast; rfl
  have s4 : ∀ c q (s : ℝ), ((Propagator.sM4 true c q s).re : ℂ) = Propagator.sM4 true c q s := fun c q s => by
    obtain ⟨x, hx⟩ := g0 c q
    refine re_eq (x := x * (1 / (x - q.Lam * s)) * (1 / (x - q.Lam * s))) ?_
    simp only [Propagator.sM4, hx]; push_cast; rfl
  cases reg <;> refine ⟨fun Λ v s => ?_, fun Λ v s => ?_⟩ <;> simp only [linesC, linesR, r2, s2, r3, s3, r4, s4]
  · exact (hs Λ v s).1
  · exact (hs Λ v s).2.1
  · exact (hs Λ v s).2.2.1
  · exact (hs Λ v s).2.2.2.1
  · exact (hs Λ v s).2.2.2.2.1
  · exact (hs Λ v s).2.2.2.2.2

/-- C158: the propagators of the code for real values satisfy the requirements as well. -/
theorem c158_lines_real (reg : Reg) (p : Propagator.Par) : GoodLines true (linesR reg p) := by
  have hst := c158_stored reg { p with eps := 0 } rfl
  have hl := c158_lines reg { p with eps := 0 }
  have e : linesR reg { p with eps := 0 } = linesR reg p := by cases reg <;> rfl
  rw [e] at hst
  have key : ∀ (a b : ℝ), star (-Complex.I * (a : ℂ)) = -Complex.I * (b : ℂ) → a = -b := by
    intro a b h
    have := congrArg Complex.im h
    simpa using this
  refine ⟨fun Λ v s => ?_, fun Λ v s => ?_⟩
  · have h := hl.g Λ v (Complex.I * s)
    have hI : star (Complex.I * (s : ℂ)) = Complex.I * ((-s : ℝ) : ℂ) := by simp
    simp only [Bool.false_eq_true, if_false, one_mul, hI, hst.g] at h
    simpa using key _ _ h
  · have h := hl.s Λ v (Complex.I * s)
    have hI : star (Complex.I * (s : ℂ)) = Complex.I * ((-s : ℝ) : ℂ) := by simp
    simp only [Bool.false_eq_true, if_false, one_mul, hI, hst.s] at h
    simpa using key _ _ h

end Verif.ImagFlow
