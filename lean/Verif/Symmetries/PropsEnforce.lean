import Verif.Symmetries.Enforce
import Verif.Symmetries.PropsSectors
import Mathlib.Tactic.Module

namespace Verif.Symmetries
open Verif.Freqs (Ch Fr)

/-! ### C38: symmetrising in place -/

section
variable {K R : Type} [Field K] [LinearOrder K] [IsStrictOrderedRing K] [CommRing R] [StarRing R] [Algebra K R]

/-- The grids are symmetric around zero, and the lookup of a grid point finds that point. -/
structure GoodGrids (g : Grids K) : Prop where
  symW : ∀ i < g.nw, g.w (g.nw - 1 - i) = - g.w i
  symV : ∀ i < g.nv, g.v (g.nv - 1 - i) = - g.v i
  cellW : ∀ i < g.nw, ((g.cellW (g.w i)).1 = i ∧ (g.cellW (g.w i)).2 = 0) ∨
    ((g.cellW (g.w i)).1 + 1 = i ∧ (g.cellW (g.w i)).2 = 1)
  cellV : ∀ i < g.nv, ((g.cellV (g.v i)).1 = i ∧ (g.cellV (g.v i)).2 = 0) ∨
    ((g.cellV (g.v i)).1 + 1 = i ∧ (g.cellV (g.v i)).2 = 1)

/-- The entries of a buffer. -/
def Key.Valid (cls : Cls) (g : Grids K) (k : Key) : Prop :=
  k.spin < 2 ∧ k.iw < g.nw ∧ k.iK < 16 ∧
  match cls with
  | .k1 => k.iv = 0 ∧ k.ivp = 0
  | .k2 => k.iv < g.nv ∧ k.ivp = 0
  | .k3 => k.iv < g.nv ∧ k.ivp < g.nv

theorem interp1_grid {g : Nat → K} {n : Nat} {cell : K → Nat × K}
    (h : ∀ i < n, ((cell (g i)).1 = i ∧ (cell (g i)).2 = 0) ∨ ((cell (g i)).1 + 1 = i ∧ (cell (g i)).2 = 1))
    (i : Nat) (hi : i < n) (f : Nat → R) : interp1 (cell (g i)) f = f i := by
  unfold interp1
  rcases h i hi with ⟨h1, h2⟩ | ⟨h1, h2⟩
  · rw [h1, h2]; simp
  · rw [h1, h2]; simp

/-- `y` are the arguments of an entry of the buffer. -/
def AtKey (cls : Cls) (g : Grids K) (y : Ind K) (k : Key) : Prop :=
  y.spin = k.spin ∧ y.iK = k.iK ∧ y.f.w = g.w k.iw ∧
  match cls with
  | .k1 => True
  | .k2 => y.f.v1 = g.v k.iv
  | .k3 => y.f.v1 = g.v k.iv ∧ y.f.v2 = g.v k.ivp

theorem interp_atKey {cls : Cls} {g : Grids K} (hg : GoodGrids g) {k : Key} (hk : k.Valid cls g) {y : Ind K}
    (hy : AtKey cls g y k) (s : Key → R) : interp cls g s y = s k := by
  obtain ⟨h1, h2, h3, h4⟩ := hy
  obtain ⟨v1, v2, v3, v4⟩ := hk
  rcases k with ⟨sp, iw, iv, ivp, iK⟩
  cases cls
  · obtain ⟨rfl, rfl⟩ := v4
    simp only at h1 h2 h3
    simp only [interp, h3, h1, h2]
    rw [interp1_grid hg.cellW _ v2]
  · obtain ⟨v5, rfl⟩ := v4
    simp only at h1 h2 h3 h4
    simp only [interp, h3, h1, h2, h4]
    rw [interp1_grid hg.cellW _ v2, interp1_grid hg.cellV _ v5]
  · obtain ⟨v5, v6⟩ := v4
    simp only at h1 h2 h3 h4
    simp only [interp, h3, h1, h2, h4.1, h4.2]
    rw [interp1_grid hg.cellW _ v2, interp1_grid hg.cellV _ v5, interp1_grid hg.cellV _ v6]

theorem iK_Ti {cfg : Cfg} (hk : cfg.keldysh = false → True) {x y : Ind K} {corr : K → K} {i : Nat}
    (h : Ti cfg corr i x = .ok y) (h16 : x.iK < 16) : y.iK < 16 := by
  let G : Ind K → Prop := fun z => z.iK < 16
  have g0 : G x := h16
  have g1 : ∀ z, G z → G (T1 cfg corr z) := fun z g => by
    show ite _ _ _ < 16; split
    · exact lt_swapIn _ g
    · exact g
  have g2 : ∀ z, G z → G (T2 cfg corr z) := fun z g => by
    show ite _ _ _ < 16; split
    · exact lt_swapOut _ g
    · exact g
  have g3 : ∀ z, G z → G (T3 cfg corr z) := fun z g => g2 _ (g1 _ g)
  have gc : ∀ z, G z → G (TC cfg corr z) := fun z g => by
    show ite _ _ _ < 16; split
    · exact lt_inOut _ g
    · exact g
  have gp : ∀ z, G z → G (Tph cfg z) := fun z g => by unfold Tph; split <;> exact g
  have gr : ∀ z, G z → G (TR cfg corr z) := fun z g => by unfold TR; split <;> exact g
  suffices hG : G y from hG
  clear_value G
  have key : ∀ (b : Bool) (z : Ind K), (if b = true then Except.ok z else Except.error Fail.assertion) =
      (.ok y : Res (Ind K)) → z = y := by
    intro b z hh; cases b <;> simp at hh; exact hh
  have key0 : ∀ z : Ind K, (Except.ok z : Res (Ind K)) = .ok y → z = y := fun z hh => by simpa using hh
  unfold Ti at h
  dsimp only at h
  split at h
  · exact key0 _ h ▸ g0
  · exact key0 _ h ▸ g1 _ g0
  · exact key0 _ h ▸ g2 _ g0
  · exact key0 _ h ▸ g3 _ g0
  · exact key0 _ h ▸ gc _ g0
  · exact key0 _ h ▸ gc _ (g1 _ g0)
  · exact key0 _ h ▸ gc _ (g2 _ g0)
  · exact key0 _ h ▸ g1 _ (gc _ g0)
  · exact key0 _ h ▸ g3 _ (gc _ g0)
  · exact key0 _ h ▸ g3 _ (gc _ g0)
  · exact key _ _ h ▸ gp _ g0
  · exact key _ _ h ▸ gp _ (g1 _ g0)
  · exact key _ _ h ▸ gp _ (g2 _ g0)
  · exact key _ _ h ▸ gp _ (g3 _ g0)
  · exact key _ _ h ▸ gp _ (gc _ g0)
  · exact key _ _ h ▸ gp _ (gc _ (g1 _ g0))
  · exact key _ _ h ▸ gp _ (gc _ (g2 _ g0))
  · exact key _ _ h ▸ g3 _ (gc _ (gp _ g0))
  · exact key0 _ h ▸ gr _ g0
  · exact key0 _ h ▸ g3 _ (gr _ g0)
  · exact key0 _ h ▸ gr _ (gc _ g0)
  · exact key0 _ h ▸ g3 _ (gc _ (gr _ g0))
  · cases h

/-- Where an entry is copied from: a valid entry inside the fundamental sector. -/
theorem source {cls : Cls} (cfg : Cfg) {ε : K} (hε : 0 ≤ ε) {g : Grids K} (hg : GoodGrids g) (c : Ch) (k : Key)
    (hk : k.Valid cls g) : ∃ src : Key, src.Valid cls g ∧ AtKey cls g (keyTransf cls cfg ε g c k) src ∧
      moves cls cfg ε g c src = false := by
  have hs : (keyInd cls g c k).spin < 2 := hk.1
  have h16 : (keyInd cls g c k).iK < 16 := hk.2.2.1
  have fw : ∀ z : K, z = g.w k.iw ∨ z = - g.w k.iw → ∃ i < g.nw, z = g.w i := by
    rintro z (h | h)
    · exact ⟨_, hk.2.1, h⟩
    · exact ⟨g.nw - 1 - k.iw, by have := hk.2.1; omega, by rw [hg.symW _ hk.2.1, h]⟩
  have fv : ∀ j < g.nv, ∀ z : K, z = g.v j ∨ z = - g.v j → ∃ i < g.nv, z = g.v i := by
    rintro j hj z (h | h)
    · exact ⟨_, hj, h⟩
    · exact ⟨g.nv - 1 - j, by omega, by rw [hg.symV _ hj, h]⟩
  cases cls
  · obtain ⟨i, y, e1, e2, e3, e4, e5, e6⟩ := c37_K1 cfg ε hε (keyInd .k1 g c k) hs
    obtain ⟨iw, hiw, ew⟩ := fw _ e6
    have ey : keyTransf .k1 cfg ε g c k = y := by
      simp only [keyTransf, select]
      have e1' : selectK1 cfg ε c (keyInd .k1 g c k).f = some i := e1
      rw [e1']; dsimp only; rw [e2]
    refine ⟨⟨k.spin, iw, 0, 0, y.iK⟩, ⟨hk.1, hiw, iK_Ti (fun _ => trivial) e2 h16, rfl, rfl⟩, ?_, ?_⟩
    · rw [ey]; exact ⟨e5, rfl, ew, trivial⟩
    · have e4' : y.ch = c := e4
      rw [e4'] at e3
      simp only [moves, select, keyFreq]
      have : selectK1 cfg ε c (⟨g.w iw, 0, 0⟩ : Fr K) = selectK1 cfg ε c y.f := by
        simp only [selectK1, ew]
      rw [this, e3]; rfl
  · obtain ⟨i, y, e1, e2, e3, e4, e5, _, e6, e7⟩ := c37_K2 cfg ε hε (keyInd .k2 g c k) hs
    obtain ⟨iw, hiw, ew⟩ := fw _ e6
    obtain ⟨iv, hiv, ev⟩ := fv k.iv hk.2.2.2.1 _ e7
    have ey : keyTransf .k2 cfg ε g c k = y := by
      simp only [keyTransf, select]
      have e1' : selectK2 cfg ε c (keyInd .k2 g c k).f = some i := e1
      rw [e1']; dsimp only; rw [e2]
    refine ⟨⟨k.spin, iw, iv, 0, y.iK⟩, ⟨hk.1, hiw, iK_Ti (fun _ => trivial) e2 h16, hiv, rfl⟩, ?_, ?_⟩
    · rw [ey]; exact ⟨e5, rfl, ew, ev⟩
    · have e4' : y.ch = c := e4
      rw [e4'] at e3
      simp only [moves, select, keyFreq]
      have : selectK2 cfg ε c (⟨g.w iw, g.v iv, 0⟩ : Fr K) = selectK2 cfg ε c y.f := by
        simp only [selectK2, ew, ev]
      rw [this, e3]; rfl
  · obtain ⟨i, y, e1, e2, e3, e4, e5, e6, e7⟩ := c37_K3 cfg ε hε (keyInd .k3 g c k) hs
    obtain ⟨iw, hiw, ew⟩ := fw _ e6
    obtain ⟨iv, hiv, ev, ivp, hivp, evp⟩ : ∃ iv < g.nv, y.f.v1 = g.v iv ∧ ∃ ivp < g.nv, y.f.v2 = g.v ivp := by
      have h1 := hk.2.2.2.1; have h2 := hk.2.2.2.2
      rcases e7 with ⟨a, b⟩ | ⟨a, b⟩ | ⟨a, b⟩ | ⟨a, b⟩
      · exact ⟨k.iv, h1, a, k.ivp, h2, b⟩
      · exact ⟨k.ivp, h2, a, k.iv, h1, b⟩
      · obtain ⟨i1, l1, q1⟩ := fv _ h1 _ (.inr a)
        obtain ⟨i2, l2, q2⟩ := fv _ h2 _ (.inr b)
        exact ⟨i1, l1, q1, i2, l2, q2⟩
      · obtain ⟨i1, l1, q1⟩ := fv _ h2 _ (.inr a)
        obtain ⟨i2, l2, q2⟩ := fv _ h1 _ (.inr b)
        exact ⟨i1, l1, q1, i2, l2, q2⟩
    have ey : keyTransf .k3 cfg ε g c k = y := by
      simp only [keyTransf, select]
      have e1' : selectK3 cfg ε (fun _ => 0) c (keyInd .k3 g c k).f = some i := e1
      rw [e1']; dsimp only; rw [e2]
    refine ⟨⟨k.spin, iw, iv, ivp, y.iK⟩, ⟨hk.1, hiw, iK_Ti (fun _ => trivial) e2 h16, hiv, hivp⟩, ?_, ?_⟩
    · rw [ey]; exact ⟨e5, rfl, ew, ev, evp⟩
    · have e4' : y.ch = c := e4
      rw [e4'] at e3
      simp only [moves, select, keyFreq]
      have : selectK3 cfg ε (fun _ => 0) c (⟨g.w iw, g.v iv, g.v ivp⟩ : Fr K) =
          selectK3 cfg ε (fun _ => 0) c y.f := by
        simp only [selectK3, ew, ev, evp]
      rw [this, e3]; rfl

/-- A schedule of the parallel loop: only accesses of entries of the buffer occur, and the accesses of every
iteration are carried out once and in program order; accesses of different iterations interleave arbitrarily. -/
structure Schedule (cls : Cls) (g : Grids K) (l : List Event) : Prop where
  valid : ∀ e ∈ l, e.key.Valid cls g
  order : ∀ k : Key, k.Valid cls g → l.filter (fun e => e.key = k) = [.rd k, .wr k, .zr k]

theorem keyTransf_of_not_moves {cls : Cls} {cfg : Cfg} {ε : K} {g : Grids K} {c : Ch} {k : Key}
    (h : moves cls cfg ε g c k = false) : keyTransf cls cfg ε g c k = keyInd cls g c k := by
  have h' : select cls cfg ε c (keyFreq cls g k) = some 0 := by simpa [moves] using h
  have h2 : select cls cfg ε c (keyInd cls g c k).f = some 0 := h'
  simp only [keyTransf]
  rw [h2]; rfl

variable {cls : Cls} {cfg : Cfg} {ε : K} {g : Grids K} {c : Ch}

/-- Entries of the fundamental sector keep their value, or are set to zero because they vanish. -/
def Inv (cls : Cls) (cfg : Cfg) (ε : K) (g : Grids K) (c : Ch) (s0 s : Key → R) : Prop :=
  ∀ k : Key, k.Valid cls g → moves cls cfg ε g c k = false →
    (vanishing cls cfg c (keyInd cls g c k) = false → s k = s0 k) ∧
    (vanishing cls cfg c (keyInd cls g c k) = true → s k = s0 k ∨ s k = 0)

theorem inv_event {s0 : Key → R} {s : St R} (h : Inv cls cfg ε g c s0 s.store) (e : Event) :
    Inv cls cfg ε g c s0 (event cls cfg ε g c s e).store := by
  intro k hk hm
  have h0 := h k hk hm
  rcases e with k' | k' | k'
  · unfold event; dsimp only; split <;> exact h0
  · unfold event; dsimp only [Event.key]; split
    · rename_i hm'
      have hne : k ≠ k' := by rintro rfl; rw [hm] at hm'; cases hm'
      simpa [Function.update_of_ne hne] using h0
    · exact h0
  · unfold event; dsimp only [Event.key]; split
    · rename_i hv
      by_cases hne : k = k'
      · subst hne
        rw [keyTransf_of_not_moves hm] at hv
        simp [hv]
      · simpa [Function.update_of_ne hne] using h0
    · exact h0

theorem inv_exec {s0 : Key → R} (l : List Event) : ∀ {s : St R}, Inv cls cfg ε g c s0 s.store →
    Inv cls cfg ε g c s0 (exec cls cfg ε g c s l).store := by
  induction l with
  | nil => exact fun h => h
  | cons e l ih => exact fun h => ih (inv_event h e)

theorem exec_append (s : St R) (l l' : List Event) :
    exec cls cfg ε g c s (l ++ l') = exec cls cfg ε g c (exec cls cfg ε g c s l) l' := by
  simp [exec, List.foldl_append]

theorem event_other (s : St R) (e : Event) (k : Key) (h : e.key ≠ k) :
    (event cls cfg ε g c s e).store k = s.store k ∧ (event cls cfg ε g c s e).result k = s.result k := by
  have h' : k ≠ e.key := fun hh => h hh.symm
  rcases e with k' | k' | k' <;> unfold event <;> dsimp only [Event.key] at h' ⊢ <;> split <;>
    simp [Function.update_of_ne h']

theorem exec_other (l : List Event) (k : Key) (h : ∀ e ∈ l, e.key ≠ k) : ∀ (s : St R),
    (exec cls cfg ε g c s l).store k = s.store k ∧ (exec cls cfg ε g c s l).result k = s.result k := by
  induction l with
  | nil => exact fun s => ⟨rfl, rfl⟩
  | cons e l ih =>
      intro s
      have h1 := event_other (cls := cls) (cfg := cfg) (ε := ε) (g := g) (c := c) s e k (h e (by simp))
      have h2 := ih (fun e he => h e (by simp [he])) (event cls cfg ε g c s e)
      exact ⟨h2.1.trans h1.1, h2.2.trans h1.2⟩

/-- Split a list at the elements that pass a filter. -/
theorem split_filter {α : Type} (p : α → Bool) (l : List α) (a : α) (rest : List α)
    (h : l.filter p = a :: rest) : ∃ A B, l = A ++ a :: B ∧ (∀ e ∈ A, p e = false) ∧ B.filter p = rest := by
  induction l with
  | nil => cases h
  | cons x l ih =>
      cases hx : p x
      · rw [List.filter_cons_of_neg (by simp [hx])] at h
        obtain ⟨A, B, rfl, hA, hB⟩ := ih h
        exact ⟨x :: A, B, rfl, by simpa [hx] using hA, hB⟩
      · rw [List.filter_cons_of_pos (by simp [hx])] at h
        injection h with h1 h2
        exact ⟨[], l, by simp [h1], by simp, h2⟩

theorem src_eq {y : Ind K} {src : Key} (h : AtKey cls g y src) :
    vanishing cls cfg c y = vanishing cls cfg c (keyInd cls g c src) := by
  simp only [vanishing, keyInd, h.1, h.2.1]

/-- **Result of every schedule.** An entry that vanishes is zero; an entry of the fundamental sector keeps its
value; every other entry holds the transformed *initial* value of an entry of the fundamental sector. -/
theorem c38_result (hε : 0 ≤ ε) (hg : GoodGrids g) (s : St R) {l : List Event} (hl : Schedule cls g l) (k : Key)
    (hk : k.Valid cls g) :
    ∃ src : Key, src.Valid cls g ∧ moves cls cfg ε g c src = false ∧
      AtKey cls g (keyTransf cls cfg ε g c k) src ∧
      (exec cls cfg ε g c s l).store k =
        if vanishing cls cfg c (keyTransf cls cfg ε g c k) then 0
        else if moves cls cfg ε g c k then applyRead cfg (keyTransf cls cfg ε g c k) (s.store src)
        else s.store k := by
  obtain ⟨src, hsv, hat, hsm⟩ := source cfg hε hg c k hk
  refine ⟨src, hsv, hsm, hat, ?_⟩
  obtain ⟨A, B1, rfl, hA, hB1⟩ := split_filter _ _ _ _ (hl.order k hk)
  obtain ⟨B, C1, rfl, hB, hC1⟩ := split_filter _ _ _ _ hB1
  obtain ⟨C, D, rfl, hC, hD⟩ := split_filter _ _ _ _ hC1
  have ne : ∀ L : List Event, (∀ e ∈ L, decide (e.key = k) = false) → ∀ e ∈ L, e.key ≠ k :=
    fun L h e he => by simpa using h e he
  have hD' : ∀ e ∈ D, e.key ≠ k := by
    intro e he heq
    have : e ∈ D.filter (fun e => decide (e.key = k)) := List.mem_filter.2 ⟨he, by simpa using heq⟩
    rw [hD] at this; cases this
  have hinv : Inv cls cfg ε g c s.store (exec cls cfg ε g c s A).store :=
    inv_exec A (fun k' _ _ => ⟨fun _ => rfl, fun _ => .inl rfl⟩)
  rw [exec_append]
  generalize hsA : exec cls cfg ε g c s A = sA at *
  have hkA : sA.store k = s.store k := by rw [← hsA]; exact (exec_other A k (ne A hA) s).1
  show (exec cls cfg ε g c (event cls cfg ε g c sA (.rd k)) (B ++ Event.wr k :: (C ++ Event.zr k :: D))).store k = _
  rw [exec_append]
  generalize hsB : exec cls cfg ε g c (event cls cfg ε g c sA (.rd k)) B = sB
  have hkB := exec_other (cls := cls) (cfg := cfg) (ε := ε) (g := g) (c := c) B k (ne B hB)
    (event cls cfg ε g c sA (.rd k))
  rw [hsB] at hkB
  show (exec cls cfg ε g c (event cls cfg ε g c sB (.wr k)) (C ++ Event.zr k :: D)).store k = _
  rw [exec_append]
  generalize hsC : exec cls cfg ε g c (event cls cfg ε g c sB (.wr k)) C = sC
  have hkC := exec_other (cls := cls) (cfg := cfg) (ε := ε) (g := g) (c := c) C k (ne C hC)
    (event cls cfg ε g c sB (.wr k))
  rw [hsC] at hkC
  show (exec cls cfg ε g c (event cls cfg ε g c sC (.zr k)) D).store k = _
  rw [(exec_other (cls := cls) (cfg := cfg) (ε := ε) (g := g) (c := c) D k hD'
    (event cls cfg ε g c sC (.zr k))).1]
  by_cases hv : vanishing cls cfg c (keyTransf cls cfg ε g c k) = true
  · simp [event, Event.key, hv]
  · have hv' : vanishing cls cfg c (keyTransf cls cfg ε g c k) = false := by simpa using hv
    rw [if_neg hv]
    have e1 : (event cls cfg ε g c sC (.zr k)).store k = sC.store k := by simp [event, Event.key, hv']
    rw [e1, hkC.1]
    by_cases hm : moves cls cfg ε g c k = true
    · rw [if_pos hm]
      have e2 : (event cls cfg ε g c sB (.wr k)).store k = sB.result k := by simp [event, hm]
      rw [e2, hkB.2]
      have e3 : (event cls cfg ε g c sA (.rd k)).result k =
          applyRead cfg (keyTransf cls cfg ε g c k) (interp cls g sA.store (keyTransf cls cfg ε g c k)) := by
        simp [event, hm, Event.key]
      rw [e3, interp_atKey hg hsv hat]
      rw [src_eq (cfg := cfg) (c := c) hat] at hv'
      rw [(hinv src hsv hsm).1 hv']
    · have hm' : moves cls cfg ε g c k = false := by simpa using hm
      rw [if_neg hm]
      have e2 : (event cls cfg ε g c sB (.wr k)).store k = sB.store k := by simp [event, hm']
      have e3 : (event cls cfg ε g c sA (.rd k)).store k = sA.store k := by simp [event, hm']
      rw [e2, hkB.1, e3, hkA]

/-- **Schedule independence.** -/
theorem c38_schedule (hε : 0 ≤ ε) (hg : GoodGrids g) (s : St R) {l l' : List Event} (hl : Schedule cls g l)
    (hl' : Schedule cls g l') (k : Key) (hk : k.Valid cls g) :
    (exec cls cfg ε g c s l).store k = (exec cls cfg ε g c s l').store k := by
  obtain ⟨src, v1, m1, a1, e1⟩ := c38_result (cfg := cfg) (c := c) hε hg s hl k hk
  obtain ⟨src', v2, m2, a2, e2⟩ := c38_result (cfg := cfg) (c := c) hε hg s hl' k hk
  rw [e1, e2]
  have : s.store src = s.store src' := by
    rw [← interp_atKey hg v1 a1 s.store, ← interp_atKey hg v2 a2 s.store]
  rw [this]

/-- **Idempotence.** -/
theorem c38_idempotent (hε : 0 ≤ ε) (hg : GoodGrids g) (s : St R) (r : Key → R) {l l' : List Event}
    (hl : Schedule cls g l) (hl' : Schedule cls g l') (k : Key) (hk : k.Valid cls g) :
    (exec cls cfg ε g c ⟨(exec cls cfg ε g c s l).store, r⟩ l').store k =
      (exec cls cfg ε g c s l).store k := by
  obtain ⟨src, v1, m1, a1, e1⟩ := c38_result (cfg := cfg) (c := c) hε hg s hl k hk
  obtain ⟨src', v2, m2, a2, e2⟩ := c38_result (cfg := cfg) (c := c) hε hg
    ⟨(exec cls cfg ε g c s l).store, r⟩ hl' k hk
  rw [e2]
  by_cases hv : vanishing cls cfg c (keyTransf cls cfg ε g c k) = true
  · rw [e1, if_pos hv, if_pos hv]
  · rw [if_neg hv]
    by_cases hm : moves cls cfg ε g c k = true
    · rw [e1, if_neg hv, if_pos hm, if_pos hm]
      congr 1
      obtain ⟨_, _, _, _, e3⟩ := c38_result (cfg := cfg) (c := c) hε hg s hl src' v2
      show (exec cls cfg ε g c s l).store src' = _
      have hv2 : ¬ vanishing cls cfg c (keyInd cls g c src') = true := by
        rw [← src_eq (cfg := cfg) (c := c) a2]; exact hv
      rw [e3, keyTransf_of_not_moves m2, if_neg hv2, if_neg (by simp [m2])]
      rw [← interp_atKey hg v1 a1 s.store, ← interp_atKey hg v2 a2 s.store]
    · rw [if_neg hm]

/-- The sequential loop is one of the schedules, whatever the order of the entries. -/
theorem c38_sequential (ks : List Key) (hv : ∀ k, k ∈ ks ↔ k.Valid cls g) (hd : ks.Nodup) :
    Schedule cls g (sequential ks) := by
  refine ⟨?_, ?_⟩
  · intro e he
    simp only [sequential, List.mem_flatMap] at he
    obtain ⟨k, hk, he⟩ := he
    have : e.key = k := by
      simp at he; rcases he with rfl | rfl | rfl <;> rfl
    rw [this]; exact (hv k).1 hk
  · intro k hk
    have hmem := (hv k).2 hk
    clear hv
    unfold sequential
    induction ks with
    | nil => cases hmem
    | cons x ks ih =>
        rw [List.flatMap_cons, List.filter_append]
        by_cases hx : x = k
        · subst hx
          have : (List.filter (fun e => decide (e.key = x))
              (List.flatMap (fun k => [Event.rd k, Event.wr k, Event.zr k]) ks)) = [] := by
            rw [List.filter_eq_nil_iff]
            intro e he
            simp only [List.mem_flatMap] at he
            obtain ⟨k', hk', he⟩ := he
            have e1 : e.key = k' := by simp at he; rcases he with rfl | rfl | rfl <;> rfl
            have : k' ≠ x := by rintro rfl; exact (List.nodup_cons.1 hd).1 hk'
            simpa [e1] using this
          rw [this]
          simp [Event.key, List.filter]
        · have hk' : k ∈ ks := by
            rcases List.mem_cons.1 hmem with h | h
            · exact absurd h.symm hx
            · exact h
          rw [ih (List.nodup_cons.1 hd).2 hk']
          simp [Event.key, List.filter, hx]

end

/-! Non-vacuity and the unsynchronised neighbour access, on a grid of three points. -/

/-- Points -1, 0, 1; `get_grid_index` truncates and clamps to the last cell. -/
def grid3 : Grids ℚ where
  nw := 3
  nv := 3
  w := fun i => (i : ℚ) - 1
  v := fun i => (i : ℚ) - 1
  cellW := fun x => if x < 0 then (0, x + 1) else (1, x)
  cellV := fun x => if x < 0 then (0, x + 1) else (1, x)

theorem grid3_good : GoodGrids grid3 := by
  have h3 : ∀ i < 3, i = 0 ∨ i = 1 ∨ i = 2 := by omega
  refine ⟨?_, ?_, ?_, ?_⟩ <;> intro i hi <;> rcases h3 i hi with rfl | rfl | rfl <;>
    simp [grid3] <;> norm_num

/-- A concrete instance: particle-hole symmetric Keldysh `K2` of channel `a`; the entry at `w = v = 1` is copied
from `w = v = -1`. -/
example : moves (K := ℚ) .k2 ⟨true, true, false⟩ 0 grid3 .a ⟨0, 2, 2, 0, 1⟩ = true := by decide +kernel

/-- Two different iterations access the same entry without synchronisation, one of them writing: the linear
interpolation at a grid point with `w = 0` also reads (with weight zero) the neighbour with `w > 0`, which another
iteration overwrites. In the C++ memory model this is a data race. -/
theorem c38_unsynchronised_refuted :
    ∃ k k' : Key, k.Valid .k2 grid3 ∧ k'.Valid .k2 grid3 ∧ k ≠ k' ∧
      moves .k2 ⟨true, true, false⟩ 0 grid3 .a k = true ∧ moves .k2 ⟨true, true, false⟩ 0 grid3 .a k' = true ∧
      k' ∈ corners .k2 grid3 (keyTransf .k2 ⟨true, true, false⟩ 0 grid3 .a k) := by
  refine ⟨⟨0, 1, 2, 0, 0⟩, ⟨0, 2, 0, 0, 0⟩, ?_, ?_, by decide, by decide +kernel, by decide +kernel, by decide +kernel⟩
  · exact ⟨by decide, by decide, by decide, by decide, rfl⟩
  · exact ⟨by decide, by decide, by decide, by decide, rfl⟩

end Verif.Symmetries
