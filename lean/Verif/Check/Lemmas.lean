import Verif.Check.Spec
import Verif.Reduce.Lemmas

namespace Verif.Check
open Verif.Symmetries
open Verif.Freqs (Ch Fr legs)

section
variable {K R : Type} [Field K] [LinearOrder K] [IsStrictOrderedRing K] [CommRing R] [StarRing R] [Algebra K R]
variable {cfg : Cfg} {ε : K}

/-- Equal up to a sign. -/
def PM (a b : K) : Prop := a = b ∨ a = -b

theorem PM.neg {a b : K} (h : PM a b) : PM (a * -1) b := by
  rcases h with rfl | rfl
  · exact .inr (by ring)
  · exact .inl (by ring)

/-- How the frequencies change: signs, and an exchange of the fermionic ones together with the sides. -/
def Moved (x z : Ind K) : Prop :=
  PM z.f.w x.f.w ∧ ((z.asym = x.asym ∧ PM z.f.v1 x.f.v1 ∧ PM z.f.v2 x.f.v2) ∨
    (z.asym = !x.asym ∧ PM z.f.v1 x.f.v2 ∧ PM z.f.v2 x.f.v1))

theorem moved_T1 {x z : Ind K} (h : Moved x z) : Moved x (T1 cfg (fun _ => 0) z) := by
  obtain ⟨h1, h2⟩ := h
  unfold T1 Moved
  by_cases hp : z.ch = .p
  · simp only [hp, if_true]
    refine ⟨h1, ?_⟩
    rcases h2 with ⟨a, b, d⟩ | ⟨a, b, d⟩
    · exact .inl ⟨a, b, by simpa using d.neg⟩
    · exact .inr ⟨a, b, by simpa using d.neg⟩
  · simp only [hp, if_false]
    refine ⟨h1.neg, ?_⟩
    rcases h2 with ⟨a, b, d⟩ | ⟨a, b, d⟩
    · exact .inr ⟨by rw [a]; simp, d, b⟩
    · exact .inl ⟨by rw [a]; simp, d, b⟩

theorem moved_T2 {x z : Ind K} (h : Moved x z) : Moved x (T2 cfg (fun _ => 0) z) := by
  obtain ⟨h1, h2⟩ := h
  unfold T2 Moved
  by_cases hp : z.ch = .p
  · simp only [hp, if_true]
    refine ⟨h1, ?_⟩
    rcases h2 with ⟨a, b, d⟩ | ⟨a, b, d⟩
    · exact .inl ⟨a, by simpa using b.neg, d⟩
    · exact .inr ⟨a, by simpa using b.neg, d⟩
  · simp only [hp, if_false]
    exact ⟨h1, h2⟩

theorem moved_neg {x z : Ind K} (h : Moved x z) {y : Ind K} (ha : y.asym = z.asym)
    (hf : y.f = ⟨z.f.w * -1, z.f.v1 * -1, z.f.v2 * -1⟩) : Moved x y := by
  obtain ⟨h1, h2⟩ := h
  unfold Moved
  rw [ha, hf]
  refine ⟨h1.neg, ?_⟩
  rcases h2 with ⟨a, b, d⟩ | ⟨a, b, d⟩
  · exact .inl ⟨a, b.neg, d.neg⟩
  · exact .inr ⟨a, b.neg, d.neg⟩

theorem moved_TC {x z : Ind K} (h : Moved x z) : Moved x (TC cfg (fun _ => 0) z) := by
  have key : Moved x { z with
      asym := if z.ch = .t then z.asym else xor z.asym true
      f := if z.ch = .t then ⟨z.f.w * -1, z.f.v1, z.f.v2⟩ else ⟨z.f.w, z.f.v2, z.f.v1⟩ } := by
    obtain ⟨h1, h2⟩ := h
    unfold Moved
    by_cases hp : z.ch = .t
    · simp only [hp, if_true]
      exact ⟨h1.neg, h2⟩
    · simp only [hp, if_false]
      refine ⟨h1, ?_⟩
      rcases h2 with ⟨a, b, d⟩ | ⟨a, b, d⟩
      · exact .inr ⟨by rw [a]; simp, d, b⟩
      · exact .inl ⟨by rw [a]; simp, d, b⟩
  by_cases hk : cfg.keldysh = true
  · unfold Moved at key ⊢
    simp only [TC, hk, if_true] at key ⊢
    exact key
  · refine moved_neg key rfl ?_
    simp only [TC, hk]
    simp

theorem moved_Tph {x z : Ind K} (h : Moved x z) : Moved x (Tph cfg z) := by
  unfold Tph; split
  · exact moved_neg h rfl rfl
  · exact h

theorem moved_TR {x z : Ind K} (h : Moved x z) : Moved x (TR cfg (fun _ => 0) z) := by
  unfold TR; split
  · exact h
  · exact moved_neg h rfl (by simp)

theorem moved_Ti {x y : Ind K} {i : Nat} (hy : Ti cfg (fun _ => 0) i x = .ok y) : Moved x y := by
  let G : Ind K → Prop := fun z => Moved x z
  have g0 : G x := ⟨.inl rfl, .inl ⟨rfl, .inl rfl, .inl rfl⟩⟩
  have g1 : ∀ z, G z → G (T1 cfg (fun _ => 0) z) := fun z g => moved_T1 g
  have g2 : ∀ z, G z → G (T2 cfg (fun _ => 0) z) := fun z g => moved_T2 g
  have g3 : ∀ z, G z → G (T3 cfg (fun _ => 0) z) := fun z g => moved_T2 (moved_T1 g)
  have gc : ∀ z, G z → G (TC cfg (fun _ => 0) z) := fun z g => moved_TC g
  have gp : ∀ z, G z → G (Tph cfg z) := fun z g => moved_Tph g
  have gr : ∀ z, G z → G (TR cfg (fun _ => 0) z) := fun z g => moved_TR g
  suffices hG : G y from hG
  clear_value G
  have key : ∀ (b : Bool) (z : Ind K), (if b = true then Except.ok z else Except.error Fail.assertion) =
      (.ok y : Res (Ind K)) → z = y := by
    intro b z hh; cases b <;> simp at hh; exact hh
  have key0 : ∀ z : Ind K, (Except.ok z : Res (Ind K)) = .ok y → z = y := fun z hh => by simpa using hh
  unfold Ti at hy
  dsimp only at hy
  split at hy
  · exact key0 _ hy ▸ g0
  · exact key0 _ hy ▸ g1 _ g0
  · exact key0 _ hy ▸ g2 _ g0
  · exact key0 _ hy ▸ g3 _ g0
  · exact key0 _ hy ▸ gc _ g0
  · exact key0 _ hy ▸ gc _ (g1 _ g0)
  · exact key0 _ hy ▸ gc _ (g2 _ g0)
  · exact key0 _ hy ▸ g1 _ (gc _ g0)
  · exact key0 _ hy ▸ g3 _ (gc _ g0)
  · exact key0 _ hy ▸ g3 _ (gc _ g0)
  · exact key _ _ hy ▸ gp _ g0
  · exact key _ _ hy ▸ gp _ (g1 _ g0)
  · exact key _ _ hy ▸ gp _ (g2 _ g0)
  · exact key _ _ hy ▸ gp _ (g3 _ g0)
  · exact key _ _ hy ▸ gp _ (gc _ g0)
  · exact key _ _ hy ▸ gp _ (gc _ (g1 _ g0))
  · exact key _ _ hy ▸ gp _ (gc _ (g2 _ g0))
  · exact key _ _ hy ▸ g3 _ (gc _ (gp _ g0))
  · exact key0 _ hy ▸ gr _ g0
  · exact key0 _ hy ▸ g3 _ (gr _ g0)
  · exact key0 _ hy ▸ gr _ (gc _ g0)
  · exact key0 _ hy ▸ g3 _ (gc _ (gr _ g0))
  · cases hy

/-- The table of component transformations. -/
theorem table_Ti (cfg : Cfg) (c : Ch) (k : KClass) (x : Ind K) (hc : x.ch = c) (hs : x.spin < 2) :
    ∃ i y, table cfg c k x.spin = some i ∧ Ti cfg (fun _ => 0) i x = .ok y ∧
      y.ch = reducedChannel c y ∧ (k = .k2 → y.asym = x.asym) ∧
      (k = .k2b → y.asym = (!x.asym) ∧ i ≠ 0) ∧ (i = 0 → k ≠ .k2b) := by
  rcases x with ⟨iK, s, ⟨w, v1, v2⟩, c', p, cj, as⟩
  rcases cfg with ⟨kd, ph, la⟩
  simp only at hc hs
  subst hc
  have : s = 0 ∨ s = 1 := by omega
  rcases this with rfl | rfl <;> cases kd <;> cases c' <;> cases k <;>
    refine ⟨_, _, by simp [table, compTransf, compTransfM, KClass.idx]; rfl, rfl, ?_⟩ <;>
    simp [reducedChannel, T3, T2, T1, TC, switchChannel]

theorem interp1_at {g : Nat → K} {n : Nat} {cell : K → Nat × K}
    (h : ∀ i < n, ((cell (g i)).1 = i ∧ (cell (g i)).2 = 0) ∨ ((cell (g i)).1 + 1 = i ∧ (cell (g i)).2 = 1))
    {z : K} {i : Nat} (hi : i < n) (hz : z = g i) (f : Nat → R) : interp1 (cell z) f = f i := by
  rw [hz, interp1_grid h i hi]

/-- The entry at which a set of arguments is found. -/
def At (k : KClass) (g : Grids K) (y : Ind K) (n : Key) : Prop :=
  y.spin = n.spin ∧ y.iK = n.iK ∧ y.f.w = g.w n.iw ∧
  match k with
  | .k1 => True
  | .k2 => y.f.v1 = g.v n.iv
  | .k2b => y.f.v2 = g.v n.ivp
  | .k3 => y.f.v1 = g.v n.iv ∧ y.f.v2 = g.v n.ivp

theorem fetch_at {k : KClass} {b : Buf K R} (hg : GoodGrids b.grid) {n : Key} (hn : Valid k b.grid n) {y : Ind K}
    (hy : At k b.grid y n) : fetch k b y = b.data n := by
  obtain ⟨h1, h2, h3, h4⟩ := hy
  obtain ⟨v1, v2, v3, v4⟩ := hn
  rcases n with ⟨sp, iw, iv, ivp, iK⟩
  cases k
  · exact interp_atKey (cls := .k1) hg ⟨v1, v2, v3, v4⟩ ⟨h1, h2, h3, h4⟩ _
  · exact interp_atKey (cls := .k2) hg ⟨v1, v2, v3, v4⟩ ⟨h1, h2, h3, h4⟩ _
  · obtain ⟨rfl, v5⟩ := v4
    simp only at h1 h2 h3 h4
    simp only [fetch, h1, h2]
    rw [interp1_at hg.cellW v2 h3, interp1_at hg.cellV v5 h4]
  · exact interp_atKey (cls := .k3) hg ⟨v1, v2, v3, v4⟩ ⟨h1, h2, h3, h4⟩ _

theorem at_self (k : KClass) (g : Grids K) (c : Ch) (n : Key) :
    At k g ({ iK := n.iK, spin := n.spin, f := freq k g n, ch := c } : Ind K) n := by
  refine ⟨rfl, rfl, ?_, ?_⟩ <;> cases k <;> simp [freq]

theorem pm_w {g : Grids K} (hg : GoodGrids g) {i : Nat} (hi : i < g.nw) {z : K} (h : PM z (g.w i)) :
    ∃ j < g.nw, z = g.w j := by
  rcases h with h | h
  · exact ⟨i, hi, h⟩
  · exact ⟨g.nw - 1 - i, by omega, by rw [hg.symW _ hi, h]⟩

theorem pm_v {g : Grids K} (hg : GoodGrids g) {i : Nat} (hi : i < g.nv) {z : K} (h : PM z (g.v i)) :
    ∃ j < g.nv, z = g.v j := by
  rcases h with h | h
  · exact ⟨i, hi, h⟩
  · exact ⟨g.nv - 1 - i, by omega, by rw [hg.symV _ hi, h]⟩

/-- Where the related value is found: an entry of the related buffer. -/
theorem moved_at {k kk : KClass} {g : Grids K} (hg : GoodGrids g) {c : Ch} {n : Key} (hn : Valid k g n)
    {y : Ind K} (hm : Moved ({ iK := n.iK, spin := n.spin, f := freq k g n, ch := c } : Ind K) y)
    (hs : y.spin < 2) (h16 : y.iK < 16)
    (hk : (k ≠ .k2b ∧ kk = k ∧ (k = .k2 → y.asym = false)) ∨ (k = .k2b ∧ kk = .k2 ∧ y.asym = true)) :
    ∃ m, Valid kk g m ∧ At kk g y m := by
  obtain ⟨m1, m2⟩ := hm
  obtain ⟨_, nw, _, nf⟩ := hn
  have ew : (freq k g n).w = g.w n.iw := by cases k <;> rfl
  simp only [ew] at m1
  obtain ⟨jw, hjw, ejw⟩ := pm_w hg nw m1
  rcases hk with ⟨hb, rfl, h2⟩ | ⟨rfl, rfl, ha⟩
  · cases kk
    · exact ⟨⟨y.spin, jw, 0, 0, y.iK⟩, ⟨hs, hjw, h16, rfl, rfl⟩, rfl, rfl, ejw, trivial⟩
    · have ha := h2 rfl
      rw [ha] at m2
      simp only [freq, Bool.not_false, true_and, Bool.false_eq_true, false_and, or_false] at m2
      obtain ⟨jv, hjv, ejv⟩ := pm_v hg nf.1 m2.1
      exact ⟨⟨y.spin, jw, jv, 0, y.iK⟩, ⟨hs, hjw, h16, hjv, rfl⟩, rfl, rfl, ejw, ejv⟩
    · exact absurd rfl hb
    · simp only [freq] at m2
      rcases m2 with ⟨_, a, b⟩ | ⟨_, a, b⟩
      · obtain ⟨j1, l1, e1⟩ := pm_v hg nf.1 a
        obtain ⟨j2, l2, e2⟩ := pm_v hg nf.2 b
        exact ⟨⟨y.spin, jw, j1, j2, y.iK⟩, ⟨hs, hjw, h16, l1, l2⟩, rfl, rfl, ejw, e1, e2⟩
      · obtain ⟨j1, l1, e1⟩ := pm_v hg nf.2 a
        obtain ⟨j2, l2, e2⟩ := pm_v hg nf.1 b
        exact ⟨⟨y.spin, jw, j1, j2, y.iK⟩, ⟨hs, hjw, h16, l1, l2⟩, rfl, rfl, ejw, e1, e2⟩
  · rw [ha] at m2
    simp only [freq, Bool.not_false, true_and, Bool.true_eq_false, false_and, false_or] at m2
    obtain ⟨jv, hjv, ejv⟩ := pm_v hg nf.2 m2.1
    exact ⟨⟨y.spin, jw, jv, 0, y.iK⟩, ⟨hs, hjw, h16, hjv, rfl⟩, rfl, rfl, ejw, ejv⟩

end

end Verif.Check
