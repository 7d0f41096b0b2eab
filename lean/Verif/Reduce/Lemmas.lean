import Verif.Reduce.Spec
import Verif.Symmetries.Props
import Verif.Symmetries.PropsTables

namespace Verif.Reduce
open Verif.Symmetries
open Verif.Freqs (Ch Fr legs)

section
variable {K R : Type} [Field K] [LinearOrder K] [IsStrictOrderedRing K] [CommRing R] [StarRing R] [Algebra K R]
variable {cls : Cls} {cfg : Cfg} {ε : K} {g : Grids K} {c : Ch}

/-- Keldysh index and spin stay in range, and without Keldysh structure the index stays zero. -/
theorem ok_Ti {corr : K → K} {x y : Ind K} (h : Ok cfg x) {i : Nat} (hy : Ti cfg corr i x = .ok y) :
    Ok cfg y := by
  let G : Ind K → Prop := fun z => Ok cfg z
  have g0 : G x := h
  have g1 : ∀ z, G z → G (T1 cfg corr z) := fun z g => ok_T1 g
  have g2 : ∀ z, G z → G (T2 cfg corr z) := fun z g => ok_T2 g
  have g3 : ∀ z, G z → G (T3 cfg corr z) := fun z g => ok_T3 g
  have gc : ∀ z, G z → G (TC cfg corr z) := fun z g => ok_TC g
  have gp : ∀ z, G z → G (Tph cfg z) := fun z g => ok_Tph g
  have gr : ∀ z, G z → G (TR cfg corr z) := fun z g => ok_TR g
  suffices hG : G y from hG
  clear_value G
  have key : ∀ (b : Bool) (z : Ind K), (if b = true then Except.ok z else Except.error Fail.assertion) =
      (.ok y : Res (Ind K)) → z = y := by
    intro b z hh; cases b <;> simp at hh; exact hh
  have key0 : ∀ z : Ind K, (Except.ok z : Res (Ind K)) = .ok y → z = y := fun z hh => by simpa using hh
  unfold Ti at hy
  dsimp only at hy
  split at hy
  · exact key0 _ hy ▸ g0
  · exact key0 _ hy ▸ g1 _ g0
  · exact key0 _ hy ▸ g2 _ g0
  · exact key0 _ hy ▸ g3 _ g0
  · exact key0 _ hy ▸ gc _ g0
  · exact key0 _ hy ▸ gc _ (g1 _ g0)
  · exact key0 _ hy ▸ gc _ (g2 _ g0)
  · exact key0 _ hy ▸ g1 _ (gc _ g0)
  · exact key0 _ hy ▸ g3 _ (gc _ g0)
  · exact key0 _ hy ▸ g3 _ (gc _ g0)
  · exact key _ _ hy ▸ gp _ g0
  · exact key _ _ hy ▸ gp _ (g1 _ g0)
  · exact key _ _ hy ▸ gp _ (g2 _ g0)
  · exact key _ _ hy ▸ gp _ (g3 _ g0)
  · exact key _ _ hy ▸ gp _ (gc _ g0)
  · exact key _ _ hy ▸ gp _ (gc _ (g1 _ g0))
  · exact key _ _ hy ▸ gp _ (gc _ (g2 _ g0))
  · exact key _ _ hy ▸ g3 _ (gc _ (gp _ g0))
  · exact key0 _ hy ▸ gr _ g0
  · exact key0 _ hy ▸ g3 _ (gr _ g0)
  · exact key0 _ hy ▸ gr _ (gc _ g0)
  · exact key0 _ hy ▸ g3 _ (gc _ (gr _ g0))
  · cases hy

/-- The entries that are calculated are those that are not filled in. -/
theorem trafo_eq_zero (k : Key) : trafo false cls cfg ε g c k = 0 ↔ moves cls cfg ε g c k = false := by
  cases cls <;>
    simp [trafo, trafoK1, trafoK2, trafoK3, moves, select, selectK1, selectK2, selectK3, keyFreq]

theorem keyTransf_Ti (hε : 0 ≤ ε) (k : Key) (hs : k.spin < 2) :
    ∃ i, Ti cfg (fun _ => 0) i (keyInd cls g c k) = .ok (keyTransf cls cfg ε g c k) ∧
      (keyTransf cls cfg ε g c k).ch = c := by
  have hs : (keyInd cls g c k).spin < 2 := hs
  cases cls
  · obtain ⟨i, y, e1, e2, e3, e4, _⟩ := c37_K1 cfg ε hε (keyInd .k1 g c k) hs
    have ey : keyTransf .k1 cfg ε g c k = y := by
      simp only [keyTransf, select]
      have e1' : selectK1 cfg ε c (keyInd .k1 g c k).f = some i := e1
      rw [e1']; dsimp only; rw [e2]
    rw [ey]; exact ⟨i, e2, e4⟩
  · obtain ⟨i, y, e1, e2, e3, e4, _⟩ := c37_K2 cfg ε hε (keyInd .k2 g c k) hs
    have ey : keyTransf .k2 cfg ε g c k = y := by
      simp only [keyTransf, select]
      have e1' : selectK2 cfg ε c (keyInd .k2 g c k).f = some i := e1
      rw [e1']; dsimp only; rw [e2]
    rw [ey]; exact ⟨i, e2, e4⟩
  · obtain ⟨i, y, e1, e2, e3, e4, _⟩ := c37_K3 cfg ε hε (keyInd .k3 g c k) hs
    have ey : keyTransf .k3 cfg ε g c k = y := by
      simp only [keyTransf, select]
      have e1' : selectK3 cfg ε (fun _ => 0) c (keyInd .k3 g c k).f = some i := e1
      rw [e1']; dsimp only; rw [e2]
    rw [ey]; exact ⟨i, e2, e4⟩

/-- Class `K2` never needs the mirror image. -/
theorem k2_asym (hε : 0 ≤ ε) (k : Key) (hs : k.spin < 2) : (keyTransf .k2 cfg ε g c k).asym = false := by
  have hs : (keyInd .k2 g c k).spin < 2 := hs
  obtain ⟨i, y, e1, e2, e3, e4, e5, e6, _⟩ := c37_K2 cfg ε hε (keyInd .k2 g c k) hs
  have ey : keyTransf .k2 cfg ε g c k = y := by
    simp only [keyTransf, select]
    have e1' : selectK2 cfg ε c (keyInd .k2 g c k).f = some i := e1
    rw [e1']; dsimp only; rw [e2]
  rw [ey, e6]; rfl

/-- Vertex and mirror image exchanged. -/
def mirror (V : Vertex K R) : Vertex K R := ⟨fun h => V.val (!h)⟩

theorem sym_mirror {V : Vertex K R} (h : Sym cfg V) : Sym cfg (mirror V) where
  crossIn h' c s α ν hs := by
    have := h.crossIn (!h') c s α ν hs
    rw [Bool.not_xor] at this; exact this
  crossOut h' c s α ν hs := by
    have := h.crossOut (!h') c s α ν hs
    rw [Bool.not_xor] at this; exact this
  conjK hk h' c s α ν hs := by
    have := h.conjK hk (!h') c s α ν hs
    rw [Bool.not_xor] at this; exact this
  conjM hk h' c s α ν hs := by
    have := h.conjM hk (!h') c s α ν hs
    rw [Bool.not_xor] at this; exact this
  ph hk hp h' c s α ν hs := h.ph hk hp (!h') c s α ν hs
  tr hk h' c s α ν hs := h.tr hk (!h') c s α ν hs
  real := h.real

/-- The value of an entry, expressed by the value of the entry it is copied from. -/
theorem truth_source {V : Vertex K R} (hV : Sym cfg V) (hi : Independent V cls c) (hε : 0 ≤ ε) {k src : Key}
    (hk : k.Valid cls g) (hm : cfg.keldysh = false → k.iK = 0)
    (hat : AtKey cls g (keyTransf cls cfg ε g c k) src) :
    truth V false cls g c k = applyRead cfg (keyTransf cls cfg ε g c k)
      (truth V (keyTransf cls cfg ε g c k).asym cls g c src) := by
  obtain ⟨i, hT, hc⟩ := keyTransf_Ti (cls := cls) (cfg := cfg) (g := g) (c := c) hε k hk.1
  have h1 := c35_value hV (x := keyInd cls g c k) hk.2.2.1 hk.1 hm i hT
  have e0 : applyRead cfg (keyInd cls g c k) (truth V false cls g c k) = truth V false cls g c k := by
    simp [applyRead, keyInd]
  have e1 : truth V false cls g c k = applyRead cfg (keyInd cls g c k) (V.val (keyInd cls g c k).asym
      (keyInd cls g c k).ch (keyInd cls g c k).spin (bits (keyInd cls g c k).iK)
      (legFun (legs (.ch (keyInd cls g c k).ch) (keyInd cls g c k).f))) := e0.symm
  rw [e1, h1, hc, hat.1, hat.2.1]
  congr 1
  rcases hf : (keyTransf cls cfg ε g c k).f with ⟨w, v, v'⟩
  have h3 := hat.2.2.1
  have h4 := hat.2.2.2
  rw [hf] at h3 h4
  cases cls
  · simp only at h3
    rw [truth, keyFreq, h3]
    exact hi _ _ _ _ _ _ _ _
  · simp only at h3 h4
    rw [k2_asym hε k hk.1, truth, keyFreq, h3, h4]
    exact hi _ _ _ _ _ _
  · simp only at h3 h4
    rw [truth, keyFreq, h3, h4.1, h4.2]

theorem vanishing_iff {y : Ind K} (hs : y.spin < 2) (h16 : y.iK < 16) :
    vanishing cls cfg c y = true ↔ cfg.keldysh = true ∧ vanishes c cls.kclass y.iK = true := by
  have hneg : ∀ (c : Ch) (k : KClass), ∀ s < 2, ∀ iK < 16,
      ((component c k s iK).any (· < 0) = true ↔ component c k s iK = some (-1)) := by decide +kernel
  simp only [vanishing, Bool.and_eq_true]
  rw [hneg c cls.kclass _ hs _ h16, c36_vanishing c cls.kclass _ hs _ h16]

theorem applyRead_zero (y : Ind K) : applyRead cfg y (0 : R) = 0 := by
  simp [applyRead]

theorem applyRead_add (y : Ind K) (a b : R) : applyRead cfg y (a + b) = applyRead cfg y a + applyRead cfg y b := by
  simp only [applyRead]
  split
  · rw [star_add, mul_add]
  · rw [mul_add]

/-- An entry whose transformed component is excluded has the value zero. -/
theorem truth_vanishing {V : Vertex K R} (hV : Sym cfg V) (hi : Independent V cls c) (hc : Causal V cls c)
    (hε : 0 ≤ ε) {k src : Key} (hk : k.Valid cls g) (hm : cfg.keldysh = false → k.iK = 0)
    (hsv : src.Valid cls g) (hat : AtKey cls g (keyTransf cls cfg ε g c k) src)
    (hv : vanishing cls cfg c (keyTransf cls cfg ε g c k) = true) : truth V false cls g c k = 0 := by
  rw [truth_source hV hi hε hk hm hat]
  have hs : (keyTransf cls cfg ε g c k).spin < 2 := by rw [hat.1]; exact hsv.1
  have h16 : (keyTransf cls cfg ε g c k).iK < 16 := by rw [hat.2.1]; exact hsv.2.2.1
  have := (vanishing_iff hs h16).1 hv
  rw [hat.2.1] at this
  rw [truth, hc _ _ hsv.1 _ hsv.2.2.1 this.2, applyRead_zero]

/-! ### Enforcing the symmetries with the help of another vertex -/

variable {other : Key → R}

theorem invWith_event {s0 : Key → R} {s : St R} (h : Inv cls cfg ε g c s0 s.store) (e : Event) :
    Inv cls cfg ε g c s0 (eventWith cls cfg ε g c other s e).store := by
  intro k hk hm
  have h0 := h k hk hm
  rcases e with k' | k' | k'
  · unfold eventWith; dsimp only; split <;> exact h0
  · unfold eventWith; dsimp only [Event.key]; split
    · rename_i hm'
      have hne : k ≠ k' := by rintro rfl; rw [hm] at hm'; cases hm'
      simpa [Function.update_of_ne hne] using h0
    · exact h0
  · unfold eventWith; dsimp only [Event.key]; split
    · rename_i hv
      by_cases hne : k = k'
      · subst hne
        rw [keyTransf_of_not_moves hm] at hv
        simp [hv]
      · simpa [Function.update_of_ne hne] using h0
    · exact h0

theorem invWith_exec {s0 : Key → R} (l : List Event) : ∀ {s : St R}, Inv cls cfg ε g c s0 s.store →
    Inv cls cfg ε g c s0 (execWith cls cfg ε g c other s l).store := by
  induction l with
  | nil => exact fun h => h
  | cons e l ih => exact fun h => ih (invWith_event h e)

theorem execWith_append (s : St R) (l l' : List Event) :
    execWith cls cfg ε g c other s (l ++ l') =
      execWith cls cfg ε g c other (execWith cls cfg ε g c other s l) l' := by
  simp [execWith, List.foldl_append]

theorem eventWith_other (s : St R) (e : Event) (k : Key) (h : e.key ≠ k) :
    (eventWith cls cfg ε g c other s e).store k = s.store k ∧
      (eventWith cls cfg ε g c other s e).result k = s.result k := by
  have h' : k ≠ e.key := fun hh => h hh.symm
  rcases e with k' | k' | k' <;> unfold eventWith <;> dsimp only [Event.key] at h' ⊢ <;> split <;>
    simp [Function.update_of_ne h']

theorem execWith_other (l : List Event) (k : Key) (h : ∀ e ∈ l, e.key ≠ k) : ∀ (s : St R),
    (execWith cls cfg ε g c other s l).store k = s.store k ∧
      (execWith cls cfg ε g c other s l).result k = s.result k := by
  induction l with
  | nil => exact fun s => ⟨rfl, rfl⟩
  | cons e l ih =>
      intro s
      have h1 := eventWith_other (cls := cls) (cfg := cfg) (ε := ε) (g := g) (c := c) (other := other) s e k
        (h e (by simp))
      have h2 := ih (fun e he => h e (by simp [he])) (eventWith cls cfg ε g c other s e)
      exact ⟨h2.1.trans h1.1, h2.2.trans h1.2⟩

/-- Result of every schedule. -/
theorem execWith_result (hε : 0 ≤ ε) (hg : GoodGrids g) (s : St R) {l : List Event} (hl : Schedule cls g l)
    (k : Key) (hk : k.Valid cls g) :
    ∃ src : Key, src.Valid cls g ∧ moves cls cfg ε g c src = false ∧
      AtKey cls g (keyTransf cls cfg ε g c k) src ∧
      (execWith cls cfg ε g c other s l).store k =
        if vanishing cls cfg c (keyTransf cls cfg ε g c k) then 0
        else if moves cls cfg ε g c k then applyRead cfg (keyTransf cls cfg ε g c k)
          ((if (keyTransf cls cfg ε g c k).asym then other else s.store) src)
        else s.store k := by
  obtain ⟨src, hsv, hat, hsm⟩ := source cfg hε hg c k hk
  refine ⟨src, hsv, hsm, hat, ?_⟩
  obtain ⟨A, B1, rfl, hA, hB1⟩ := split_filter _ _ _ _ (hl.order k hk)
  obtain ⟨B, C1, rfl, hB, hC1⟩ := split_filter _ _ _ _ hB1
  obtain ⟨C, D, rfl, hC, hD⟩ := split_filter _ _ _ _ hC1
  have ne : ∀ L : List Event, (∀ e ∈ L, decide (e.key = k) = false) → ∀ e ∈ L, e.key ≠ k :=
    fun L h e he => by simpa using h e he
  have hD' : ∀ e ∈ D, e.key ≠ k := by
    intro e he heq
    have : e ∈ D.filter (fun e => decide (e.key = k)) := List.mem_filter.2 ⟨he, by simpa using heq⟩
    rw [hD] at this; cases this
  have hinv : Inv cls cfg ε g c s.store (execWith cls cfg ε g c other s A).store :=
    invWith_exec A (fun k' _ _ => ⟨fun _ => rfl, fun _ => .inl rfl⟩)
  rw [execWith_append]
  generalize hsA : execWith cls cfg ε g c other s A = sA at *
  have hkA : sA.store k = s.store k := by rw [← hsA]; exact (execWith_other A k (ne A hA) s).1
  show (execWith cls cfg ε g c other (eventWith cls cfg ε g c other sA (.rd k))
    (B ++ Event.wr k :: (C ++ Event.zr k :: D))).store k = _
  rw [execWith_append]
  generalize hsB : execWith cls cfg ε g c other (eventWith cls cfg ε g c other sA (.rd k)) B = sB
  have hkB := execWith_other (cls := cls) (cfg := cfg) (ε := ε) (g := g) (c := c) (other := other) B k (ne B hB)
    (eventWith cls cfg ε g c other sA (.rd k))
  rw [hsB] at hkB
  show (execWith cls cfg ε g c other (eventWith cls cfg ε g c other sB (.wr k)) (C ++ Event.zr k :: D)).store k = _
  rw [execWith_append]
  generalize hsC : execWith cls cfg ε g c other (eventWith cls cfg ε g c other sB (.wr k)) C = sC
  have hkC := execWith_other (cls := cls) (cfg := cfg) (ε := ε) (g := g) (c := c) (other := other) C k (ne C hC)
    (eventWith cls cfg ε g c other sB (.wr k))
  rw [hsC] at hkC
  show (execWith cls cfg ε g c other (eventWith cls cfg ε g c other sC (.zr k)) D).store k = _
  rw [(execWith_other (cls := cls) (cfg := cfg) (ε := ε) (g := g) (c := c) (other := other) D k hD'
    (eventWith cls cfg ε g c other sC (.zr k))).1]
  by_cases hv : vanishing cls cfg c (keyTransf cls cfg ε g c k) = true
  · simp [eventWith, Event.key, hv]
  · have hv' : vanishing cls cfg c (keyTransf cls cfg ε g c k) = false := by simpa using hv
    rw [if_neg hv]
    have e1 : (eventWith cls cfg ε g c other sC (.zr k)).store k = sC.store k := by
      simp [eventWith, Event.key, hv']
    rw [e1, hkC.1]
    by_cases hm : moves cls cfg ε g c k = true
    · rw [if_pos hm]
      have e2 : (eventWith cls cfg ε g c other sB (.wr k)).store k = sB.result k := by simp [eventWith, hm]
      rw [e2, hkB.2]
      have e3 : (eventWith cls cfg ε g c other sA (.rd k)).result k =
          applyRead cfg (keyTransf cls cfg ε g c k) (interp cls g
            (if (keyTransf cls cfg ε g c k).asym then other else sA.store) (keyTransf cls cfg ε g c k)) := by
        unfold eventWith
        dsimp only [Event.key]
        rw [if_pos hm]
        exact Function.update_self _ _ _
      rw [e3, interp_atKey hg hsv hat]
      rw [src_eq (cfg := cfg) (c := c) hat] at hv'
      congr 1
      split
      · rfl
      · exact (hinv src hsv hsm).1 hv'
    · have hm' : moves cls cfg ε g c k = false := by simpa using hm
      rw [if_neg hm]
      have e2 : (eventWith cls cfg ε g c other sB (.wr k)).store k = sB.store k := by simp [eventWith, hm']
      have e3 : (eventWith cls cfg ε g c other sA (.rd k)).store k = sA.store k := by simp [eventWith, hm']
      rw [e2, hkB.1, e3, hkA]

end

end Verif.Reduce
