import Verif.Sde.Lemmas
import Verif.Anderson.Props

/-! C159: the parquet iteration at real frequencies keeps the symmetries of the state. -/
namespace Verif.Sde
open Verif.Symmetries Verif.Heredity Verif.Propagator Verif.Invariant
open Verif.Freqs (Ch Fr legs)

variable {ph : Bool}

theorem GoodS.neg' {σ : SF} (h : GoodS ph 0 σ) : GoodS ph 0 (-σ) := by
  have := GoodS.smul (-1) h
  rwa [neg_one_smul] at this

/-- The mean of two mirror images is symmetric. -/
theorem mean_good {L R : VF} {P : Pair} (hL : GoodV ph L) (hR : GoodV ph R) (hP : GoodPair ph P) :
    GoodV ph ((0.5 : ℝ) • (bub L R P + bub R L P)) := by
  refine GoodV.smul _ (goodV_of_mirror (Sym.add' (bub_sym hL.sym hR.sym hP) (bub_sym hR.sym hL.sym hP)) ?_)
  rw [mirror_add, mirror_bub, mirror_bub, add_comm]

theorem split_good {u : Setup} {e : ℝ} {σ : SF} (h : GoodS u.ph e σ) : GoodS u.ph e (split u σ) := by
  unfold split
  by_cases hp : u.ph = true
  · rw [if_pos hp]; exact h
  · rw [if_neg hp]
    exact ⟨h.anti, fun h' => absurd h' hp⟩

theorem closed_good {u : Setup} {bare Γ : VF} {σ : SF} (hb : GoodV u.ph bare) (hΓ : GoodV u.ph Γ)
    (hσ : GoodS u.ph u.p.eps σ) (hmu : u.ph = true → u.p.mu = 0) (c : Ch) : GoodS u.ph 0 (closed u bare σ Γ c) :=
  split_good (loopOne_good (mean_good hb hΓ (good_pair hσ hmu)) (good_G hσ hmu).1 (good_G hσ hmu).2 _ _ c)

/-- C159: the part of the self-energy that the Schwinger–Dyson equation (version 1 or 2) yields for a symmetric state is
symmetric: its Keldysh component is anti-Hermitian, and with particle-hole symmetry it is particle-hole symmetric with no
constant part. -/
theorem c159_dynamic {u : Setup} {bare V : VF} {σ : SF} (first : Bool) (hb : GoodV u.ph bare) (hV : GoodV u.ph V)
    (hσ : GoodS u.ph u.p.eps σ) (hmu : u.ph = true → u.p.mu = 0) : GoodS u.ph 0 (dynamic first u bare σ V) := by
  have hbV := GoodV.add hb hV
  have hf := full_good hb hV
  cases first
  · simp only [dynamic, Bool.false_eq_true, if_false]
    exact GoodS.smul _ (GoodS.add (closed_good hb hf hσ hmu .a) (closed_good hb hf hσ hmu .p))
  · simp only [dynamic, if_true]
    unfold equation1
    rw [sub_eq_add_neg]
    exact GoodS.add (GoodS.add (GoodS.add (closed_good hb hbV hσ hmu .a) (closed_good hb hbV hσ hmu .p))
      (closed_good hb hbV hσ hmu .t)) (GoodS.neg' (GoodS.smul 2 (closed_good hb hb hσ hmu .a)))

theorem shift_good {e : ℝ} (h : ℝ) {σ : SF} (hσ : GoodS ph e σ) : GoodS ph (e - h) (shift h σ) where
  anti := hσ.anti
  ph hp v := by
    obtain ⟨h1, h2⟩ := hσ.ph hp v
    refine ⟨?_, h2⟩
    simp only [shift, h1, star_add, Complex.star_def, Complex.conj_ofReal]
    push_cast; ring

/-- C159: with particle-hole symmetry the self-energy computed from a symmetric state is particle-hole symmetric around a
level at minus half the interaction, whatever level the propagators were computed with. -/
theorem c159_level {u : Setup} {bare V : VF} {σ : SF} (first : Bool) (hartree : SF → ℝ) (hph : u.ph = true)
    (hb : GoodV u.ph bare) (hV : GoodV u.ph V) (hσ : GoodS u.ph u.p.eps σ) (hmu : u.p.mu = 0) :
    GoodS u.ph (-(u.U / 2)) (computeSDE first u hartree bare σ V) := by
  have h := shift_good (u.U / 2) (c159_dynamic first hb hV hσ fun _ => hmu)
  rw [zero_sub] at h
  simpa only [computeSDE, hph, if_true] using h

/-- C159: with particle-hole symmetry, symmetry around the level of the propagators is kept only if this level is at minus
half the interaction. -/
theorem c159_level_only {u : Setup} {bare V : VF} {σ : SF} (first : Bool) (hartree : SF → ℝ) (hph : u.ph = true)
    (hb : GoodV u.ph bare) (hV : GoodV u.ph V) (hσ : GoodS u.ph u.p.eps σ) (hmu : u.p.mu = 0) :
    GoodS u.ph u.p.eps (computeSDE first u hartree bare σ V) ↔ u.p.eps = -(u.U / 2) := by
  have h := c159_level first hartree hph hb hV hσ hmu
  constructor
  · intro h'
    have e := (h'.ph hph 0).1.symm.trans (h.ph hph 0).1
    have e2 : ((u.p.eps : ℝ) : ℂ) = ((-(u.U / 2) : ℝ) : ℂ) := by linear_combination (-1/2 : ℂ) * e
    exact_mod_cast e2
  · intro e; rw [e]; exact h

/-- C159: the right-hand side of the Bethe–Salpeter equation for a symmetric state is symmetric. -/
theorem c159_bse {u : Setup} {bare V : VF} {σ : SF} (hb : GoodV u.ph bare) (hV : GoodV u.ph V)
    (hσ : GoodS u.ph u.p.eps σ) (hmu : u.ph = true → u.p.mu = 0) : GoodV u.ph (computeBSE u bare σ V) :=
  mean_good (GoodV.add hb (others_good hV)) (full_good hb hV) (good_pair hσ hmu)

/-- What the iteration is run with: a symmetric bare vertex, and with particle-hole symmetry the level at minus half the
interaction and no chemical potential. -/
structure Ready (u : Setup) (bare : VF) : Prop where
  bare : GoodV u.ph bare
  mu : u.ph = true → u.p.mu = 0
  eps : u.ph = true → u.p.eps = -(u.U / 2)

/-- C159: an iteration of the parquet equations turns symmetric states into symmetric states. -/
theorem c159_iteration {u : Setup} {bare : VF} (h : Ready u bare) (first : Bool) (hartree : SF → ℝ) {y : SF × VF}
    (hy : GoodState u.ph u.p.eps y) : GoodState u.ph u.p.eps (iteration first u hartree bare y) := by
  refine ⟨?_, c159_bse h.bare hy.2 hy.1 h.mu⟩
  by_cases hp : u.ph = true
  · rw [h.eps hp]
    exact c159_level first hartree hp h.bare hy.2 hy.1 (h.mu hp)
  · have g := c159_dynamic (V := y.2) first h.bare hy.2 hy.1 h.mu
    exact ⟨g.anti, fun h' => absurd h' hp⟩

/-! ### The solver -/

/-- Combinations with weights that add up to one. -/
theorem combine_good {e : ℝ} {ι : Type} (s : Finset ι) (w : ι → ℝ) (y : ι → SF × VF) (hw : ∑ i ∈ s, w i = 1)
    (hy : ∀ i ∈ s, GoodState ph e (y i)) : GoodState ph e (∑ i ∈ s, w i • y i) := by
  have hV : ∀ t : Finset ι, t ⊆ s → GoodV ph (∑ i ∈ t, w i • y i).2 := by
    classical
    intro t
    induction t using Finset.induction_on with
    | empty => intro _; simpa using GoodV.zero
    | insert i t hi ih =>
      intro ht
      rw [Finset.sum_insert hi]
      exact GoodV.add (GoodV.smul _ (hy i (ht (Finset.mem_insert_self _ _))).2)
        (ih fun x hx => ht (Finset.mem_insert_of_mem hx))
  refine ⟨⟨fun v => ?_, fun h v => ?_⟩, hV s (Finset.Subset.refl s)⟩
  · simp only [Prod.fst_sum, Prod.snd_sum, Finset.sum_apply, star_sum, ← Finset.sum_neg_distrib]
    refine Finset.sum_congr rfl fun i hi => ?_
    simp [(hy i hi).1.anti v]
  · simp only [Prod.fst_sum, Prod.snd_sum, Finset.sum_apply, star_sum, ← Finset.sum_neg_distrib]
    constructor
    · have e1 : (2 * e : ℂ) = ∑ i ∈ s, (w i : ℂ) * (2 * e) := by
        rw [← Finset.sum_mul, ← Complex.ofReal_sum, hw]; simp
      rw [e1, ← Finset.sum_sub_distrib]
      refine Finset.sum_congr rfl fun i hi => ?_
      simp [((hy i hi).1.ph h v).1]
      ring
    · refine Finset.sum_congr rfl fun i hi => ?_
      simp [((hy i hi).1.ph h v).2]

/-- An update whose result is a combination of the states of the history with weights that add up to one. -/
def Affine {S : Type} [AddCommGroup S] [Module ℝ S] (upd : List (S × S) → ℝ → S) : Prop :=
  ∀ hist m, hist ≠ [] → ∃ w w' : Fin hist.length → ℝ, (∑ i, w i + ∑ i, w' i) = 1 ∧
    upd hist m = ∑ i, w i • (hist[i]).1 + ∑ i, w' i • (hist[i]).2

/-- Mixing and acceleration are of this kind. -/
theorem c159_updates {S : Type} [AddCommGroup S] [Module ℝ S] (ratio : ℝ) (gam : List (S × S) → ℕ → ℝ) :
    Affine (Parquet.plainMixing (V := S) ratio) ∧ Affine (Parquet.accelerated gam) := by
  constructor
  · intro hist m hne
    obtain ⟨l, p, rfl⟩ : ∃ l p, hist = l ++ [p] := by
      rcases List.eq_nil_or_concat hist with h | ⟨l, p, h⟩
      · exact absurd h hne
      · exact ⟨l, p, by rw [h, List.concat_eq_append]⟩
    have hl : l.length < (l ++ [p]).length := by simp
    refine ⟨fun i => if i = ⟨l.length, hl⟩ then ratio else 0, fun i => if i = ⟨l.length, hl⟩ then 1 - ratio else 0, ?_, ?_⟩
    · simp
    · simp [Parquet.plainMixing, ite_smul]
  · intro hist m hne
    refine ⟨fun i => Anderson.alpha hist.length (gam hist) i * m, fun i => Anderson.alpha hist.length (gam hist) i * (1 - m),
      ?_, ?_⟩
    · rw [← Finset.sum_mul, ← Finset.sum_mul, ← mul_add]
      have := Anderson.c59_sum_one hist.length (List.length_pos_of_ne_nil hne) (gam hist)
      rw [Finset.sum_range] at this
      rw [this]; ring
    · simp only [Parquet.accelerated, Anderson.update_eq hist hne, smul_add, smul_smul, Finset.sum_add_distrib]

theorem affine_good {e : ℝ} {upd : List ((SF × VF) × (SF × VF)) → ℝ → SF × VF} (h : Affine upd)
    (hist : List ((SF × VF) × (SF × VF))) (hne : hist ≠ []) (m : ℝ)
    (hh : ∀ x ∈ hist, GoodState ph e x.1 ∧ GoodState ph e x.2) : GoodState ph e (upd hist m) := by
  obtain ⟨w, w', h1, h2⟩ := h hist m hne
  have := combine_good (e := e) (ph := ph) (Finset.univ : Finset (Fin hist.length ⊕ Fin hist.length)) (Sum.elim w w')
    (Sum.elim (fun i => (hist[i]).1) (fun i => (hist[i]).2)) (by simpa using h1) (by
      rintro (i | i) _
      · exact (hh _ (List.getElem_mem _)).1
      · exact (hh _ (List.getElem_mem _)).2)
  rw [h2]
  simpa using this

/-- Everything in the memory of the solver is in `A`. -/
structure Inside {S : Type} (A : S → Prop) (s : Parquet.LoopState S) : Prop where
  now : A s.stateIn
  hist : ∀ x ∈ s.hist, A x.1 ∧ A x.2
  saved : ∀ x ∈ s.saved, A x.state

theorem mem_pushBounded {α : Type} {n : ℕ} {l : List α} {x y : α} (h : y ∈ Parquet.pushBounded n l x) : y ∈ l ∨ y = x := by
  unfold Parquet.pushBounded at h
  simp only at h
  split at h
  · have := List.mem_of_mem_drop h
    simpa using this
  · simpa using h

section
variable {S : Type} {A : S → Prop} {P : Parquet.Problem S}

theorem pass_keeps (hr : ∀ y, A y → A (P.rhs y))
    (hu : ∀ hist m, hist ≠ [] → (∀ x ∈ hist, A x.1 ∧ A x.2) → A (P.upd hist m)) (acc : ℝ) {s : Parquet.LoopState S}
    (hs : Inside A s) : Inside A (Parquet.pass P acc s).1 := by
  have hh : ∀ x ∈ Parquet.pushBounded 4 s.hist (P.rhs s.stateIn, s.stateIn), A x.1 ∧ A x.2 := by
    intro x hx
    rcases mem_pushBounded hx with hx | rfl
    · exact hs.hist x hx
    · exact ⟨hr _ hs.now, hs.now⟩
  have hne : Parquet.pushBounded 4 s.hist (P.rhs s.stateIn, s.stateIn) ≠ [] := by
    unfold Parquet.pushBounded
    simp only
    split
    · rename_i hl
      intro h0
      rw [List.drop_eq_nil_iff, List.length_append, List.length_singleton] at h0
      rw [List.length_append, List.length_singleton] at hl
      omega
    · simp
  have ho := hu _ s.mix hne hh
  refine ⟨ho, hh, fun x hx => ?_⟩
  simp only [Parquet.pass, List.mem_append, List.mem_singleton] at hx
  rcases hx with hx | rfl
  · exact hs.saved x hx
  · exact ho

theorem loop_keeps (hr : ∀ y, A y → A (P.rhs y))
    (hu : ∀ hist m, hist ≠ [] → (∀ x ∈ hist, A x.1 ∧ A x.2) → A (P.upd hist m)) (acc : ℝ) (k : ℕ) {s : Parquet.LoopState S}
    (hs : Inside A s) : Inside A (Parquet.loop P acc k s).1 := by
  induction k generalizing s with
  | zero => exact pass_keeps hr hu acc hs
  | succ k ih =>
    rw [Parquet.loop]
    split
    · exact pass_keeps hr hu acc hs
    · exact ih (pass_keeps hr hu acc hs)

theorem solve_keeps (hr : ∀ y, A y → A (P.rhs y))
    (hu : ∀ hist m, hist ≠ [] → (∀ x ∈ hist, A x.1 ∧ A x.2) → A (P.upd hist m)) (acc : ℝ) (Nmax : ℕ) (mix : ℝ) {y : S}
    (hy : A y) : Inside A (Parquet.solve P acc Nmax mix y).1 := by
  have g : Inside A (Parquet.loopStart mix y) :=
    ⟨hy, fun x hx => by simp [Parquet.loopStart] at hx, fun x hx => by
      simp only [Parquet.loopStart, List.mem_singleton] at hx
      rw [hx]; exact hy⟩
  exact loop_keeps hr hu acc (Nmax - 1) g

end

/-- C159: the parquet solver started from a symmetric state, with mixing or acceleration, works with symmetric states only:
its result and everything it writes is symmetric, however many iterations it makes and whether or not it converges. -/
theorem c159_solver {u : Setup} {bare : VF} {first : Bool} {hartree : SF → ℝ}
    {upd : List ((SF × VF) × (SF × VF)) → ℝ → SF × VF} {relV relS : SF × VF → SF × VF → Option ℝ} (h : Ready u bare)
    (hu : Affine upd) (acc : ℝ) (Nmax : ℕ) (mix : ℝ) {y : SF × VF} (hy : GoodState u.ph u.p.eps y) :
    let r := Parquet.solve (problem first u hartree bare upd relV relS) acc Nmax mix y
    GoodState u.ph u.p.eps r.1.stateIn ∧ ∀ x ∈ r.1.saved, GoodState u.ph u.p.eps x.state := by
  have := solve_keeps (A := GoodState u.ph u.p.eps) (P := problem first u hartree bare upd relV relS)
    (fun y hy => c159_iteration h first hartree hy) (fun hist m hne hh => affine_good hu hist hne m hh) acc Nmax mix hy
  exact ⟨this.now, this.saved⟩

end Verif.Sde
