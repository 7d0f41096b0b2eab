import Verif.Pipeline.Spec
import Verif.Layout.Props
import Verif.Reduce.Props
import Verif.SpinSum.Props
import Mathlib.Tactic.NoncommRing

/-! C148: the bubble computation as a whole. -/
namespace Verif.Pipeline
open Verif.Symmetries Verif.Reduce
open Verif.Freqs (Ch Fr)

section
variable {K R X : Type} [Field K] [LinearOrder K] [IsStrictOrderedRing K] [CommRing R] [StarRing R] [Algebra K R]
variable {cls : Cls} {cfg : Cfg} {ε : K} {g : Grids K} {c : Ch}

theorem keldyshSum_add_left (c : Ch) (L L' M P : Nat → R) (iK : Nat) :
    keldyshSum c (fun k => L k + L' k) M P iK = keldyshSum c L M P iK + keldyshSum c L' M P iK := by
  simp only [keldyshSum, ← Finset.sum_add_distrib]
  exact Finset.sum_congr rfl fun _ _ => by ring

theorem keldyshSum_add_right (c : Ch) (L M M' P : Nat → R) (iK : Nat) :
    keldyshSum c L (fun k => M k + M' k) P iK = keldyshSum c L M P iK + keldyshSum c L M' P iK := by
  simp only [keldyshSum, ← Finset.sum_add_distrib]
  exact Finset.sum_congr rfl fun _ _ => by ring

theorem keldyshSum_zero_left (c : Ch) (M P : Nat → R) (iK : Nat) : keldyshSum c (fun _ => 0) M P iK = 0 := by
  simp [keldyshSum]

theorem keldyshSum_zero_right (c : Ch) (L P : Nat → R) (iK : Nat) : keldyshSum c L (fun _ => 0) P iK = 0 := by
  simp [keldyshSum]

/-- The matrix product is the sum over the internal Keldysh indices. -/
theorem contract (I : Input X R) (c : Ch) (k : Key) (x : X) (L M : Nat → R) (i j : Fin 4) :
    (Keldysh.loadLeft (kch c) L * I.pair c k x * Keldysh.loadRight (kch c) M) i j =
      keldyshSum c L M (I.pairValue k x) (Keldysh.rotate (kch c) true (4 * i.val + j.val)) := by
  have hz : ∀ n, n ∉ Keldysh.nonZeroBubble → I.pairValue k x n = 0 := by
    intro n hn
    unfold Input.pairValue
    have := Keldysh.c34_zero (I.g1 k x) (I.g2 k x) (I.s1 k x) (I.s2 k x) hn
    split
    · exact this.2
    · exact this.1
  have e := Keldysh.contraction (kch c) L M (I.pair c k x) (I.pairValue k x) (by
    intro a b
    unfold Input.pair Input.pairValue
    split
    · exact Keldysh.piMatrixDiff_internal _ _ _ _ _ _ _
    · exact Keldysh.piMatrix_internal _ _ _ _ _) hz i j
  show Keldysh.integrandMatrix (kch c) L M (I.pair c k x) i j = _
  rw [e]
  unfold Keldysh.integrandScalar
  rw [Keldysh.sum_nonZero _ (fun n _ hn => by simp only [hz n hn]; ring)]
  unfold keldyshSum
  rw [Finset.sum_eq_multiset_sum, Finset.range_val, Multiset.range, Multiset.map_coe, Multiset.sum_coe]

theorem spins_eq (Γ : Nat → Nat → R) (s1' s2' s1 s2 : Bool) : spins Γ s1' s2' s1 s2 =
    fun k => (if s1' = s1 ∧ s2' = s2 then Γ 0 k else 0) + (if s1' = s2 ∧ s2' = s1 then Γ 1 k else 0) := rfl

/-- The matrix-valued integrand holds, in the entry that is stored at a Keldysh component, the sum over all internal
spins and Keldysh indices for that component. -/
theorem integrand_entry (I : Input X R) (c : Ch) (k : Key) (hs : k.spin < 2) (x : X) (i j : Fin 4) :
    I.integrand c k x i j = bubbleSum c k.spin (I.left k x) (I.right k x) (I.pairValue k x)
      (Keldysh.rotate (kch c) true (4 * i.val + j.val)) := by
  have h : k.spin = 0 ∨ k.spin = 1 := by omega
  have key := fun L M => contract I c k x L M i j
  unfold Input.integrand
  rcases h with h | h <;> rw [h] <;> cases c <;>
    simp [SpinSum.matrixForm, SpinSum.summed, kch, bubbleSum, spins_eq, Fintype.sum_bool, add_mul,
      mul_add, keldyshSum_add_left, keldyshSum_add_right, keldyshSum_zero_left, keldyshSum_zero_right] at key ⊢ <;>
    simp only [key] <;> ring

theorem keyOf_idxOf {k : Key} (h : k.Valid cls g) : keyOf cls (idxOf cls k) = k := by
  obtain ⟨-, -, -, h⟩ := h
  rcases k with ⟨s, w, v, vp, iK⟩
  cases cls <;> simp_all [keyOf, idxOf, Layout.shape, lcls]

theorem trafo_iK (dbg : Bool) (k : Key) (n : Nat) :
    trafo dbg cls cfg ε g c { k with iK := n } = trafo dbg cls cfg ε g c k := by
  cases cls <;> rfl

theorem matrix_entry (I : Input X R) (c : Ch) (k : Key) (hs : k.spin < 2) {i j : Nat} (hi : i < 4) (hj : j < 4) :
    I.matrix c { k with iK := 0 } i j = I.diagram c { k with iK := Keldysh.rotate (kch c) true (4 * i + j) } := by
  unfold Input.matrix Input.diagram
  simp only
  congr 1
  funext x
  rw [dif_pos ⟨hi, hj⟩]
  exact integrand_entry I c { k with iK := 0 } hs x ⟨i, hi⟩ ⟨j, hj⟩

/-- What the storage delivers for every entry, before the completion by symmetry. -/
theorem stored (dbg : Bool) (I : Input X R) {ws nodes : Nat} {small : R → Bool}
    {sched : Nat → Nat → List (Nat × Nat)} (hws : 0 < ws) (hn : 0 < nodes) (hsm : small 0 = true)
    (hs : Mpi.ValidSchedule ⟨ws, nodes, Index.numElems (dims cls g 1), 16⟩
      ((Index.numElems (dims cls g 1) + nodes - 1) / nodes) sched) :
    ∃ out, Layout.run .keldysh (lcls cls) (dims cls g 16)
        (fun idx => decide (trafo dbg cls cfg ε g c (keyOf cls idx) = 0))
        (fun nvec idx => Layout.storeKeldysh (kch c) nvec (I.matrix c (keyOf cls idx))) ws nodes small sched = .ok out ∧
      ∀ k : Key, k.Valid cls g → access (idxOf cls k) (dims cls g 16) out =
        if trafo dbg cls cfg ε g c k = 0 then I.diagram c k else 0 := by
  let F : List Nat → R := fun idx =>
    I.matrix c { keyOf cls idx with iK := 0 } (Keldysh.unrotate (kch c) true (keyOf cls idx).iK / 4)
      (Keldysh.unrotate (kch c) true (keyOf cls idx).iK % 4)
  have hM : ∀ s iw iv ivp, ∀ i < 4, ∀ j < 4,
      I.matrix c (keyOf cls (Layout.shape (lcls cls) s iw iv ivp 0 0)) i j =
        F (Layout.shape (lcls cls) s iw iv ivp (Keldysh.rotate (kch c) true (4 * i + j)) 0) := by
    intro s iw iv ivp i hi j hj
    have h16 : 4 * i + j < 16 := by omega
    obtain ⟨h4, _, _, _⟩ := Keldysh.c32_inverse (kch c) true (4 * i + j) h16
    have e1 : (4 * i + j) / 4 = i := by omega
    have e2 : (4 * i + j) % 4 = j := by omega
    cases cls <;> simp [F, keyOf, Layout.shape, lcls, h4, e1, e2]
  have hF : ∀ k : Key, k.Valid cls g → F (idxOf cls k) = I.diagram c k := by
    intro k hk
    have h16 := hk.2.2.1
    obtain ⟨_, h2, _, h1⟩ := Keldysh.c32_inverse (kch c) true k.iK h16
    show I.matrix c { keyOf cls (idxOf cls k) with iK := 0 } _ _ = _
    rw [keyOf_idxOf hk, matrix_entry I c k hk.1 (by omega) (by omega), Nat.div_add_mod, h2]
  have hneed : ∀ k : Key, k.Valid cls g →
      trafo dbg cls cfg ε g c (keyOf cls (Layout.shape (lcls cls) k.spin k.iw k.iv k.ivp 0 0)) =
        trafo dbg cls cfg ε g c k := by
    intro k hk
    have : keyOf cls (Layout.shape (lcls cls) k.spin k.iw k.iv k.ivp 0 0) = { k with iK := 0 } := by
      obtain ⟨-, -, -, h⟩ := hk
      rcases k with ⟨s, w, v, vp, iK⟩
      cases cls <;> simp_all [keyOf, Layout.shape, lcls]
    rw [this, trafo_iK]
  have fin : ∀ {nv nvp : Nat} (hd : ∀ n, dims cls g n = Layout.shape (lcls cls) 2 g.nw nv nvp n 1)
      (hv : ∀ k : Key, k.Valid cls g → k.iv < nv ∧ k.ivp < nvp),
      ∃ out, Layout.run .keldysh (lcls cls) (dims cls g 16)
        (fun idx => decide (trafo dbg cls cfg ε g c (keyOf cls idx) = 0))
        (fun nvec idx => Layout.storeKeldysh (kch c) nvec (I.matrix c (keyOf cls idx))) ws nodes small sched = .ok out ∧
      ∀ k : Key, k.Valid cls g → access (idxOf cls k) (dims cls g 16) out =
        if trafo dbg cls cfg ε g c k = 0 then I.diagram c k else 0 := by
    intro nv nvp hd hv
    rw [hd 1] at hs
    obtain ⟨out, e, -, h⟩ := Layout.c128_keldysh (lcls cls) (kch c) 2 g.nw nv nvp
      (fun idx => decide (trafo dbg cls cfg ε g c (keyOf cls idx) = 0)) (fun idx => I.matrix c (keyOf cls idx)) F hM
      hws hn hsm hs
    rw [hd 16]
    refine ⟨out, e, fun k hk => ?_⟩
    obtain ⟨b1, b2⟩ := hv k hk
    have := h k.spin hk.1 k.iw hk.2.1 k.iv b1 k.ivp b2 k.iK hk.2.2.1
    have hr : Index.InRange (idxOf cls k) (Layout.shape (lcls cls) 2 g.nw nv nvp 16 1) := by
      have a1 := hk.1
      have a2 := hk.2.1
      have a3 := hk.2.2.1
      unfold idxOf Layout.shape Index.InRange
      cases cls <;> simp [lcls, a1, a2, a3, b1, b2]
    obtain ⟨p, hp, -, hpr, -⟩ := Index.c01_mult_flat_mult _ _ (by cases cls <;> simp [Layout.shape, lcls]) hr
    unfold access
    rw [hp]
    simp only
    rw [hpr, List.getD, show Index.rowMajor (idxOf cls k) _ = Index.rowMajor (Layout.shape (lcls cls) k.spin k.iw k.iv
      k.ivp k.iK 0) (Layout.shape (lcls cls) 2 g.nw nv nvp 16 1) from rfl, this]
    simp only [Option.getD_some, decide_eq_true_eq, hneed k hk]
    rw [← hF k hk]
    rfl
  cases cls
  · exact fin (nv := 1) (nvp := 1) (fun _ => rfl) fun k hk => by
      have := hk.2.2.2; simp at this; omega
  · exact fin (nv := g.nv) (nvp := 1) (fun _ => rfl) fun k hk => by
      have := hk.2.2.2; simp at this; omega
  · exact fin (nv := g.nv) (nvp := g.nv) (fun _ => rfl) fun k hk => by
      have := hk.2.2.2; simp at this; omega

/-- C148: for every number of processes and nodes, every thread schedule and every order of the accesses of the
completion by symmetry, the computation succeeds, and its result is what the specification of the diagram gives when the
fundamental sector is calculated and the rest is completed by symmetry. -/
theorem c148_result (dbg : Bool) (I : Input X R) (hε : 0 ≤ ε) (hg : GoodGrids g) {ws nodes : Nat} {small : R → Bool}
    {sched : Nat → Nat → List (Nat × Nat)} (hws : 0 < ws) (hn : 0 < nodes) (hsm : small 0 = true)
    (hs : Mpi.ValidSchedule ⟨ws, nodes, Index.numElems (dims cls g 1), 16⟩
      ((Index.numElems (dims cls g 1) + nodes - 1) / nodes) sched) {l : List Event} (hl : Schedule cls g l) :
    ∃ f, call dbg cls cfg ε g c I ws nodes small sched l = .ok f ∧
      ∀ k : Key, k.Valid cls g →
        (dbg = true → f k = I.diagram c k) ∧
        (dbg = false → ∃ src : Key, src.Valid cls g ∧ AtKey cls g (keyTransf cls cfg ε g c k) src ∧
          moves cls cfg ε g c src = false ∧
          f k = if vanishing cls cfg c (keyTransf cls cfg ε g c k) then 0
            else if moves cls cfg ε g c k then applyRead cfg (keyTransf cls cfg ε g c k) (I.diagram c src)
            else I.diagram c k) := by
  obtain ⟨out, e, h⟩ := stored (cls := cls) (cfg := cfg) (ε := ε) (g := g) (c := c) dbg I hws hn hsm hs
  refine ⟨_, by unfold call; rw [e]; rfl, ?_⟩
  intro k hk
  refine ⟨?_, ?_⟩
  · rintro rfl
    show access (idxOf cls k) (dims cls g 16) out = _
    rw [h k hk, if_pos]
    cases cls <;> simp [trafo, trafoK1, trafoK2, trafoK3]
  · rintro rfl
    obtain ⟨src, h1, h2, h3, h4⟩ := c38_result (cfg := cfg) (c := c) (ε := ε) hε hg
      ⟨fun k => access (idxOf cls k) (dims cls g 16) out, fun _ => 0⟩ hl k hk
    refine ⟨src, h1, h3, h2, ?_⟩
    show (exec cls cfg ε g c _ l).store k = _
    rw [h4]
    by_cases hm : moves cls cfg ε g c k = true
    · rw [if_pos hm, if_pos hm]
      dsimp only
      rw [h src h1, if_pos ((trafo_eq_zero src).2 h2)]
    · rw [if_neg hm, if_neg hm]
      dsimp only
      rw [h k hk, if_pos ((trafo_eq_zero k).2 (by simpa using hm))]

/-- C148: if the calculated diagrams are those of a vertex with the physical symmetries, every entry of the result is
the diagram of exactly its spin, frequencies and Keldysh indices - also the entries that have not been calculated. -/
theorem c148_exact (dbg : Bool) (I : Input X R) {V : Vertex K R} (hV : Sym cfg V) (hi : Independent V cls c)
    (hc : Causal V cls c) (hmir : cls ≠ .k2 → ∀ s α ν, V.val true c s α ν = V.val false c s α ν)
    (hcfg : cfg.keldysh = true)
    (hI : ∀ k : Key, k.Valid cls g → (dbg = false → moves cls cfg ε g c k = false) →
      I.diagram c k = truth V false cls g c k)
    (hε : 0 ≤ ε) (hg : GoodGrids g) {ws nodes : Nat} {small : R → Bool}
    {sched : Nat → Nat → List (Nat × Nat)} (hws : 0 < ws) (hn : 0 < nodes) (hsm : small 0 = true)
    (hs : Mpi.ValidSchedule ⟨ws, nodes, Index.numElems (dims cls g 1), 16⟩
      ((Index.numElems (dims cls g 1) + nodes - 1) / nodes) sched) {l : List Event} (hl : Schedule cls g l) :
    ∃ f, call dbg cls cfg ε g c I ws nodes small sched l = .ok f ∧
      ∀ k : Key, k.Valid cls g → f k = truth V false cls g c k := by
  obtain ⟨f, e, h⟩ := c148_result (cfg := cfg) (ε := ε) (c := c) dbg I hε hg hws hn hsm hs hl
  refine ⟨f, e, fun k hk => ?_⟩
  obtain ⟨ht, hf⟩ := h k hk
  have hm : cfg.keldysh = false → k.iK = 0 := fun h => by rw [hcfg] at h; cases h
  cases dbg
  · obtain ⟨src, hsv, hat, hsm, e⟩ := hf rfl
    rw [e]
    by_cases hv : vanishing cls cfg c (keyTransf cls cfg ε g c k) = true
    · rw [if_pos hv, truth_vanishing hV hi hc hε hk hm hsv hat hv]
    · rw [if_neg hv]
      by_cases hmv : moves cls cfg ε g c k = true
      · rw [if_pos hmv, truth_source hV hi hε hk hm hat, hI src hsv fun _ => hsm]
        congr 1
        cases ha : (keyTransf cls cfg ε g c k).asym
        · rfl
        · refine (hmir ?_ _ _ _).symm
          rintro rfl
          rw [k2_asym hε k hk.1] at ha; cases ha
      · rw [if_neg hmv, hI k hk fun _ => by simpa using hmv]
  · rw [ht rfl, hI k hk (by simp)]

/-- C148: the result does not depend on the number of processes and nodes, the thread schedule and the order of the
accesses. -/
theorem c148_independent (dbg : Bool) (I : Input X R) (hε : 0 ≤ ε) (hg : GoodGrids g) {ws nodes ws' nodes' : Nat}
    {small : R → Bool} {sched sched' : Nat → Nat → List (Nat × Nat)} (hws : 0 < ws) (hn : 0 < nodes) (hws' : 0 < ws')
    (hn' : 0 < nodes') (hsm : small 0 = true)
    (hs : Mpi.ValidSchedule ⟨ws, nodes, Index.numElems (dims cls g 1), 16⟩
      ((Index.numElems (dims cls g 1) + nodes - 1) / nodes) sched)
    (hs' : Mpi.ValidSchedule ⟨ws', nodes', Index.numElems (dims cls g 1), 16⟩
      ((Index.numElems (dims cls g 1) + nodes' - 1) / nodes') sched')
    {l l' : List Event} (hl : Schedule cls g l) (hl' : Schedule cls g l') :
    ∃ f f', call dbg cls cfg ε g c I ws nodes small sched l = .ok f ∧
      call dbg cls cfg ε g c I ws' nodes' small sched' l' = .ok f' ∧ ∀ k : Key, k.Valid cls g → f k = f' k := by
  obtain ⟨f, e, h⟩ := c148_result (cfg := cfg) (ε := ε) (c := c) dbg I hε hg hws hn hsm hs hl
  obtain ⟨f', e', h'⟩ := c148_result (cfg := cfg) (ε := ε) (c := c) dbg I hε hg hws' hn' hsm hs' hl'
  refine ⟨f, f', e, e', fun k hk => ?_⟩
  cases dbg
  · obtain ⟨src, v1, a1, m1, e1⟩ := (h k hk).2 rfl
    obtain ⟨src', v2, a2, m2, e2⟩ := (h' k hk).2 rfl
    rw [e1, e2]
    have : I.diagram c src = I.diagram c src' := by
      rw [← interp_atKey hg v1 a1 (I.diagram c), ← interp_atKey hg v2 a2 (I.diagram c)]
    rw [this]
  · rw [(h k hk).1 rfl, (h' k hk).1 rfl]

end

end Verif.Pipeline
