import Verif.Reduce.Discrete
import Verif.Reduce.Lemmas
import Mathlib.Tactic.Linarith

namespace Verif.Reduce
open Verif.Symmetries
open Verif.Freqs (Ch Fr halfFloor legsM)

/-- Entries of the buffer (no Keldysh index). -/
def ValidD (cls : Cls) (d : Dense) (k : Key) : Prop :=
  k.spin < 2 ∧ k.iw < 2 * d.nb + 1 ∧ k.iK = 0 ∧
  match cls with
  | .k1 => k.iv = 0 ∧ k.ivp = 0
  | .k2 => k.iv < 2 * d.nf ∧ k.ivp = 0
  | .k3 => k.iv < 2 * d.nf ∧ k.ivp < 2 * d.nf

/-- `y` are the arguments of an entry of the buffer. -/
def AtD (cls : Cls) (d : Dense) (y : Ind Int) (k : Key) : Prop :=
  y.spin = k.spin ∧ y.iK = k.iK ∧ y.f.w = d.w k.iw ∧
  match cls with
  | .k1 => True
  | .k2 => y.f.v1 = d.v k.iv
  | .k3 => y.f.v1 = d.v k.iv ∧ y.f.v2 = d.v k.ivp

theorem k1D (cfg : Cfg) (hk : cfg.keldysh = false) (x : Ind Int) (hs : x.spin < 2) :
    ∃ i y, selectD .k1 cfg x.ch x.f = some i ∧ Ti cfg corr i x = .ok y ∧ y.ch = x.ch ∧ y.spin = x.spin ∧
      y.iK = x.iK ∧ (y.f.w = x.f.w ∨ y.f.w = -x.f.w) ∧ y.f.w ≤ 0 := by
  rcases x with ⟨iK, s, ⟨w, v1, v2⟩, c, p, cj, as⟩
  rcases cfg with ⟨kd, ph, la⟩
  simp only at hk; subst hk
  have hs2 : 1 - (1 - s) = s := by simp only at hs; omega
  by_cases h : 0 < w
  all_goals
    cases c <;>
      refine ⟨_, _, by simp only [selectD, selectK1, signIndex, h, freqK1, if_true, if_false]; rfl, rfl, ?_⟩ <;>
      simp only [T3, T1, T2, TC, switchChannel, hs2, reduceCtorEq, if_true, if_false,
        Bool.false_eq_true, true_and, true_or, or_true, and_true, and_self] <;>
      and_intros <;> first | rfl | trivial | omega

theorem k2D (cfg : Cfg) (hk : cfg.keldysh = false) (x : Ind Int) (hs : x.spin < 2) (hw : x.f.w % 2 = 0)
    (hv : x.f.v1 % 2 = 1) :
    ∃ i y, selectD .k2 cfg x.ch x.f = some i ∧ Ti cfg corr i x = .ok y ∧ y.ch = x.ch ∧ y.spin = x.spin ∧
      y.iK = x.iK ∧ y.asym = x.asym ∧ (y.f.w = x.f.w ∨ y.f.w = -x.f.w) ∧ y.f.w ≤ 0 ∧
      (y.f.v1 = x.f.v1 ∨ y.f.v1 = -x.f.v1 + corr x.f.w) ∧ y.f.v1 < 0 := by
  rcases x with ⟨iK, s, ⟨w, v1, v2⟩, c, p, cj, as⟩
  rcases cfg with ⟨kd, ph, la⟩
  simp only at hk hw hv; subst hk
  have hs2 : 1 - (1 - s) = s := by simp only at hs; omega
  by_cases h : 0 < w <;> by_cases g : 0 < v1
  all_goals
    cases c <;>
      refine ⟨_, _, by simp only [selectD, selectK2, signIndex, h, g, freqK2, if_true, if_false]; rfl, rfl, ?_⟩ <;>
      simp only [T3, T1, T2, TC, TR, switchChannel, hs2, corr, halfFloor, reduceCtorEq, if_true, if_false,
        Bool.xor_true, Bool.not_not, Bool.false_eq_true, Bool.xor_false, true_and, true_or, or_true, and_true, and_self] <;>
      and_intros <;> first | rfl | trivial | omega

set_option maxHeartbeats 1000000 in
theorem k3D (cfg : Cfg) (hk : cfg.keldysh = false) (x : Ind Int) (hs : x.spin < 2) (hw : x.f.w % 2 = 0)
    (hv : x.f.v1 % 2 = 1) (hv' : x.f.v2 % 2 = 1) :
    ∃ i y, selectD .k3 cfg x.ch x.f = some i ∧ Ti cfg corr i x = .ok y ∧ y.ch = x.ch ∧ y.spin = x.spin ∧
      y.iK = x.iK ∧ (y.f.w = x.f.w ∨ y.f.w = -x.f.w) ∧ y.f.w ≤ 0 ∧
      ((y.f.v1 = x.f.v1 ∧ y.f.v2 = x.f.v2) ∨ (y.f.v1 = x.f.v2 ∧ y.f.v2 = x.f.v1) ∨
        (y.f.v1 = -x.f.v1 + corr x.f.w ∧ y.f.v2 = -x.f.v2 + corr x.f.w) ∨
        (y.f.v1 = -x.f.v2 + corr x.f.w ∧ y.f.v2 = -x.f.v1 + corr x.f.w)) ∧
      y.f.v1 ≤ y.f.v2 ∧ y.f.v1 + y.f.v2 ≤ corr y.f.w / 2 := by
  rcases x with ⟨iK, s, ⟨w, v1, v2⟩, c, p, cj, as⟩
  rcases cfg with ⟨kd, ph, la⟩
  simp only at hk hw hv hv'; subst hk
  have hs2 : 1 - (1 - s) = s := by simp only at hs; omega
  by_cases h : 0 < w <;> by_cases g : 0 < v1 + v2 - corr w / 2 <;> by_cases e : 0 < v1 - v2
  all_goals
    cases c <;>
      refine ⟨_, _, by simp only [selectD, selectK3, signIndex, h, g, e, freqK3, if_true, if_false]; rfl, rfl, ?_⟩ <;>
      simp only [T3, T1, T2, TC, TR, switchChannel, hs2, reduceCtorEq, if_true, if_false,
        Bool.xor_true, Bool.not_not, Bool.false_eq_true, Bool.xor_false, true_and, true_or, or_true, and_true, and_self] <;>
      and_intros <;> first | rfl | trivial | (unfold corr halfFloor at *; omega)

theorem v_index {d : Dense} {z : Int} (ho : z % 2 = 1) (h1 : -(2 * (d.nf : Int) - 1) ≤ z) (h2 : z ≤ 2 * d.nf - 1) :
    ∃ j < 2 * d.nf, z = d.v j ∧ ((z - 1) / 2 + d.nf).toNat = j := by
  refine ⟨((z - 1) / 2 + d.nf).toNat, ?_, ?_, rfl⟩
  · omega
  · unfold Dense.v; omega

theorem w_index {d : Dense} {z : Int} (ho : z % 2 = 0) (h1 : -(2 * (d.nb : Int)) ≤ z) (h2 : z ≤ 2 * d.nb) :
    ∃ j < 2 * d.nb + 1, z = d.w j ∧ (z / 2 + d.nb).toNat = j := by
  refine ⟨(z / 2 + d.nb).toNat, ?_, ?_, rfl⟩
  · omega
  · unfold Dense.w; omega

theorem corr_cases (w : Int) (hw : w % 2 = 0) : corr w = 0 ∨ corr w = -2 := by
  unfold corr halfFloor; omega

theorem corr_neg (w : Int) (hw : w % 2 = 0) : corr (-w) = corr w := by
  unfold corr halfFloor; omega

theorem v_low (d : Dense) (j : Nat) (hj : j < 2 * d.nf) (w : Int) (hw : w % 2 = 0) :
    -(2 * d.v j) + corr w < 2 * d.lowest ↔ corr w = -2 ∧ d.v j = 2 * d.nf - 1 := by
  have := corr_cases w hw
  unfold Dense.v Dense.lowest
  omega

/-- Where an entry is copied from. -/
structure Source (cls : Cls) (cfg : Cfg) (d : Dense) (c : Ch) (k src : Key) : Prop where
  valid : ValidD cls d src
  at' : AtD cls d (transfD cls cfg d c k) src
  stays : movesD cls cfg d c src = false
  kept : dropped cls d src = false
  needed : neededD false cls d src = true
  ch : (transfD cls cfg d c k).ch = c
  asym : cls = .k2 → (transfD cls cfg d c k).asym = false
  code : ∃ i, Ti cfg corr i (indD cls d c k) = .ok (transfD cls cfg d c k)

theorem transfD_eq {cls : Cls} {cfg : Cfg} {d : Dense} {c : Ch} {k : Key} {i : Nat} {y : Ind Int}
    (h1 : selectD cls cfg c (freqD cls d k) = some i) (h2 : Ti cfg corr i (indD cls d c k) = .ok y) :
    transfD cls cfg d c k = y := by
  have h1' : selectD cls cfg c (indD cls d c k).f = some i := h1
  simp only [transfD]
  rw [h1']; dsimp only; rw [h2]

theorem w_even (d : Dense) (i : Nat) : d.w i % 2 = 0 := by unfold Dense.w; omega
theorem v_odd (d : Dense) (j : Nat) : d.v j % 2 = 1 := by unfold Dense.v; omega

theorem w_range (d : Dense) (i : Nat) (h : i < 2 * d.nb + 1) : -(2 * (d.nb : Int)) ≤ d.w i ∧ d.w i ≤ 2 * d.nb := by
  unfold Dense.w; omega
theorem v_range (d : Dense) (j : Nat) (h : j < 2 * d.nf) :
    -(2 * (d.nf : Int) - 1) ≤ d.v j ∧ d.v j ≤ 2 * d.nf - 1 := by
  unfold Dense.v; omega

/-- Every entry that is not set to zero has a source on the grid, in the part that is calculated. -/
theorem source_D {cls : Cls} {cfg : Cfg} (hk : cfg.keldysh = false) {d : Dense} (c : Ch) {k : Key}
    (hv : ValidD cls d k) (hd : dropped cls d k = false) : ∃ src, Source cls cfg d c k src := by
  obtain ⟨hs, hiw, h0, hf⟩ := hv
  have ew := w_even d k.iw
  have rw' := w_range d k.iw hiw
  cases cls
  · obtain ⟨i, y, e1, e2, e3, e4, e5, e6, e7⟩ := k1D cfg hk (indD .k1 d c k) hs
    have ey := transfD_eq (cls := .k1) (c := c) e1 e2
    have e6' : y.f.w = d.w k.iw ∨ y.f.w = - d.w k.iw := e6
    obtain ⟨jw, hjw, q1, _⟩ := w_index (d := d) (z := y.f.w) (by omega) (by omega) (by omega)
    refine ⟨⟨y.spin, jw, 0, 0, y.iK⟩, ⟨e4 ▸ hs, hjw, e5.trans h0, rfl, rfl⟩, ?_, ?_, rfl, ?_, ?_, ?_, ?_⟩
    · rw [ey]; exact ⟨rfl, rfl, q1, trivial⟩
    · have : ¬ (0 : Int) < d.w jw := by omega
      simp only [movesD, selectD, selectK1, freqD, signIndex, this, if_false]
      cases c <;> simp [freqK1, hk]
    · have : d.w jw ≤ 0 := by omega
      simp [neededD, this]
    · rw [ey]; exact e3
    · intro h; cases h
    · rw [ey]; exact ⟨i, e2⟩
  · obtain ⟨i, y, e1, e2, e3, e4, e5, e6, e7, e8, e9, e10⟩ := k2D cfg hk (indD .k2 d c k) hs ew (v_odd d k.iv)
    have ey := transfD_eq (cls := .k2) (c := c) e1 e2
    have e7' : y.f.w = d.w k.iw ∨ y.f.w = - d.w k.iw := e7
    have e9' : y.f.v1 = d.v k.iv ∨ y.f.v1 = - d.v k.iv + corr (d.w k.iw) := e9
    have hvo := v_odd d k.iv
    have hvr := v_range d k.iv hf.1
    have hd' : ¬ (corr (d.w k.iw) = -2 ∧ d.v k.iv = 2 * d.nf - 1) := by
      rw [← v_low d k.iv hf.1 _ ew]; simpa [dropped] using hd
    have hc := corr_cases (d.w k.iw) ew
    obtain ⟨jw, hjw, q1, _⟩ := w_index (d := d) (z := y.f.w) (by omega) (by omega) (by omega)
    obtain ⟨jv, hjv, q2, _⟩ := v_index (d := d) (z := y.f.v1) (by omega) (by omega) (by omega)
    refine ⟨⟨y.spin, jw, jv, 0, y.iK⟩, ⟨e4 ▸ hs, hjw, e5.trans h0, hjv, rfl⟩, ?_, ?_, ?_, ?_, ?_, ?_, ?_⟩
    · rw [ey]; exact ⟨rfl, rfl, q1, q2⟩
    · have h1 : ¬ (0 : Int) < d.w jw := by omega
      have h2 : ¬ (0 : Int) < d.v jv := by omega
      simp only [movesD, selectD, selectK2, freqD, signIndex, h1, h2, if_false]
      cases c <;> simp [freqK2, hk]
    · have h2 : ¬ (corr (d.w jw) = -2 ∧ d.v jv = 2 * d.nf - 1) := by omega
      rw [← v_low d jv hjv _ (w_even d jw)] at h2
      simpa [dropped] using h2
    · have h1 : d.w jw ≤ 0 := by omega
      have h2 : jv < d.nf := by rw [q2] at e10; unfold Dense.v at e10; omega
      simp [neededD, h1, h2]
    · rw [ey]; exact e3
    · intro _; rw [ey]; exact e6
    · rw [ey]; exact ⟨i, e2⟩
  · obtain ⟨i, y, e1, e2, e3, e4, e5, e7, e8, e9, e10, e11⟩ :=
      k3D cfg hk (indD .k3 d c k) hs ew (v_odd d k.iv) (v_odd d k.ivp)
    have ey := transfD_eq (cls := .k3) (c := c) e1 e2
    have e7' : y.f.w = d.w k.iw ∨ y.f.w = - d.w k.iw := e7
    have e9' : (y.f.v1 = d.v k.iv ∧ y.f.v2 = d.v k.ivp) ∨ (y.f.v1 = d.v k.ivp ∧ y.f.v2 = d.v k.iv) ∨
        (y.f.v1 = - d.v k.iv + corr (d.w k.iw) ∧ y.f.v2 = - d.v k.ivp + corr (d.w k.iw)) ∨
        (y.f.v1 = - d.v k.ivp + corr (d.w k.iw) ∧ y.f.v2 = - d.v k.iv + corr (d.w k.iw)) := e9
    have o1 := v_odd d k.iv
    have r1 := v_range d k.iv hf.1
    have o2 := v_odd d k.ivp
    have r2 := v_range d k.ivp hf.2
    have hd1 : ¬ (corr (d.w k.iw) = -2 ∧ d.v k.iv = 2 * d.nf - 1) := by
      rw [← v_low d k.iv hf.1 _ ew]
      intro h; simp [dropped, h] at hd
    have hd2 : ¬ (corr (d.w k.iw) = -2 ∧ d.v k.ivp = 2 * d.nf - 1) := by
      rw [← v_low d k.ivp hf.2 _ ew]
      intro h; simp [dropped, h] at hd
    have hc := corr_cases (d.w k.iw) ew
    have hcy : corr y.f.w = corr (d.w k.iw) := by
      rcases e7' with h | h <;> rw [h]
      exact corr_neg _ ew
    rw [hcy] at e11
    obtain ⟨jw, hjw, q1, _⟩ := w_index (d := d) (z := y.f.w) (by omega) (by omega) (by omega)
    obtain ⟨jv, hjv, q2, _⟩ := v_index (d := d) (z := y.f.v1) (by omega) (by omega) (by omega)
    obtain ⟨jp, hjp, q3, _⟩ := v_index (d := d) (z := y.f.v2) (by omega) (by omega) (by omega)
    have hcw : corr (d.w jw) = corr (d.w k.iw) := by rw [← q1, hcy]
    refine ⟨⟨y.spin, jw, jv, jp, y.iK⟩, ⟨e4 ▸ hs, hjw, e5.trans h0, hjv, hjp⟩, ?_, ?_, ?_, ?_, ?_, ?_, ?_⟩
    · rw [ey]; exact ⟨rfl, rfl, q1, q2, q3⟩
    · have h1 : ¬ (0 : Int) < d.w jw := by omega
      have h2 : ¬ (0 : Int) < d.v jv + d.v jp - corr (d.w jw) / 2 := by rw [hcw]; omega
      have h3 : ¬ (0 : Int) < d.v jv - d.v jp := by omega
      simp only [movesD, selectD, selectK3, freqD, signIndex, h1, h2, h3, if_false]
      cases c <;> simp [freqK3, hk]
    · have h2 : ¬ (corr (d.w jw) = -2 ∧ d.v jv = 2 * d.nf - 1) := by omega
      have h3 : ¬ (corr (d.w jw) = -2 ∧ d.v jp = 2 * d.nf - 1) := by omega
      rw [← v_low d jv hjv _ (w_even d jw)] at h2
      rw [← v_low d jp hjp _ (w_even d jw)] at h3
      simpa [dropped] using And.intro (not_lt.1 h2) (not_lt.1 h3)
    · have h1 : d.w jw ≤ 0 := by omega
      have h2 : jv < d.nf := by
        have : y.f.v1 < 0 := by omega
        rw [q2] at this; unfold Dense.v at this; omega
      simp [neededD, h1, h2]
    · rw [ey]; exact e3
    · intro h; cases h
    · rw [ey]; exact ⟨i, e2⟩

end Verif.Reduce
