import Verif.Expand.Spec
import Mathlib.Tactic.Abel
import Mathlib.Tactic.SplitIfs

namespace Verif.Expand

open Freqs (Ch Fr)
open Vertex (KC Input Reader Full Conf)

section
variable {F V : Type} [AddCommGroup V]

/-- The parts of a vertex depend on what is read from it only. -/
theorem part_congr {R R' : Type} (cf : Conf F) (rd : Reader R F V) (rd' : Reader R' F V) (Γ : Full R V)
    (Γ' : Full R' V) (b : Ch) (irr own : Bool) (iK iK' s s' i : Nat) (f : Fr F) (q : Part)
    (h0 : Γ'.irred iK' i s' = Γ.irred iK i s)
    (h : ∀ k r f, rd' k (Γ'.ch r) (Γ'.crossing r) ⟨iK', s', i, f⟩ = rd k (Γ.ch r) (Γ.crossing r) ⟨iK, s, i, f⟩) :
    part cf rd' Γ' b irr own ⟨iK', s', i, f⟩ q = part cf rd Γ b irr own ⟨iK, s, i, f⟩ q := by
  have ha := fun k f => h k .a f
  have hp := fun k f => h k .p f
  have ht := fun k f => h k .t f
  simp only [Full.ch, Full.crossing] at ha hp ht
  cases q <;> cases b <;>
    simp [part, Vertex.leftSame, Vertex.rightSame, Vertex.leftDiff, Vertex.rightDiff, Vertex.rvLeftSame,
      Vertex.rvRightSame, Vertex.rvLeftDiff, Vertex.rvRightDiff, Vertex.staticPart, Vertex.gammaRb, Vertex.chValue,
      Vertex.rvValue, Full.ch, Full.crossing, h0, ha, hp, ht]

theorem value_congr {R R' : Type} (cf : Conf F) (rd : Reader R F V) (rd' : Reader R' F V) (Γ : Full R V)
    (Γ' : Full R' V) (b : Ch) (irr : Bool) (iK iK' s s' i : Nat) (f : Fr F)
    (h0 : Γ'.irred iK' i s' = Γ.irred iK i s)
    (h : ∀ k r f, rd' k (Γ'.ch r) (Γ'.crossing r) ⟨iK', s', i, f⟩ = rd k (Γ.ch r) (Γ.crossing r) ⟨iK, s, i, f⟩) :
    Vertex.value cf rd' Γ' b irr ⟨iK', s', i, f⟩ = Vertex.value cf rd Γ b irr ⟨iK, s, i, f⟩ := by
  have ha := fun k f => h k .a f
  have hp := fun k f => h k .p f
  have ht := fun k f => h k .t f
  simp only [Full.ch, Full.crossing] at ha hp ht
  cases b <;>
    simp [Vertex.value, Vertex.gammaRb, Vertex.chValue, Vertex.rvValue, Full.ch, Full.crossing, h0, ha, hp, ht]

/-- Whether a class exists in the build. -/
def Has (maxDiag : Nat) : KC → Prop
  | .k1 => True
  | .k2 => 2 ≤ maxDiag
  | .k2b => 2 ≤ maxDiag
  | .k3 => 3 ≤ maxDiag

section
variable {R : Type} (cf : Conf F) (rd : Reader R F V) (Γ Γ₀ Γ₁ : Full R V) (b : Ch) (iK s i : Nat)
  (h : ∀ k r f, Has cf.maxDiag k → rd k (Γ.ch r) (Γ.crossing r) ⟨iK, s, i, f⟩
      = rd k (Γ₀.ch r) (Γ₀.crossing r) ⟨iK, s, i, f⟩ + rd k (Γ₁.ch r) (Γ₁.crossing r) ⟨iK, s, i, f⟩)
include h

theorem chValue_add (r : Ch) (f : Fr F) : Vertex.chValue cf rd Γ b r ⟨iK, s, i, f⟩
      = Vertex.chValue cf rd Γ₀ b r ⟨iK, s, i, f⟩ + Vertex.chValue cf rd Γ₁ b r ⟨iK, s, i, f⟩ := by
  have h1 := fun f => h .k1 r f trivial
  have h2 := fun f => h .k2 r f
  have h2b := fun f => h .k2b r f
  have h3 := fun f => h .k3 r f
  simp only [Has] at h1 h2 h2b h3
  unfold Vertex.chValue Vertex.rvValue
  dsimp only
  split_ifs with c3 c2 c2
  · rw [h1, h2 _ c2, h2b _ c2, h3 _ c3]; abel
  · rw [h1, h3 _ c3]; abel
  · rw [h1, h2 _ c2, h2b _ c2]; abel
  · rw [h1]

theorem gammaRb_add (f : Fr F) : Vertex.gammaRb cf rd Γ b ⟨iK, s, i, f⟩
      = Vertex.gammaRb cf rd Γ₀ b ⟨iK, s, i, f⟩ + Vertex.gammaRb cf rd Γ₁ b ⟨iK, s, i, f⟩ := by
  unfold Vertex.gammaRb
  cases b <;> simp only [chValue_add cf rd Γ Γ₀ Γ₁ _ iK s i h] <;> abel

theorem static_add (f : Fr F) : Vertex.staticPart cf rd Γ b ⟨iK, s, i, f⟩
      = Vertex.staticPart cf rd Γ₀ b ⟨iK, s, i, f⟩ + Vertex.staticPart cf rd Γ₁ b ⟨iK, s, i, f⟩ := by
  have ha := fun f => h .k1 .a f trivial
  have hp := fun f => h .k1 .p f trivial
  have ht := fun f => h .k1 .t f trivial
  simp only [Full.ch, Full.crossing] at ha hp ht
  unfold Vertex.staticPart
  cases b <;> simp only [ha, hp, ht] <;> abel

theorem leftSame_add (r : Ch) (f : Fr F) : Vertex.rvLeftSame cf rd (Γ.ch r) (Γ.crossing r) ⟨iK, s, i, f⟩
      = Vertex.rvLeftSame cf rd (Γ₀.ch r) (Γ₀.crossing r) ⟨iK, s, i, f⟩
        + Vertex.rvLeftSame cf rd (Γ₁.ch r) (Γ₁.crossing r) ⟨iK, s, i, f⟩ := by
  unfold Vertex.rvLeftSame
  rw [h .k1 r f trivial]
  split_ifs with c
  · rw [h .k2b r f c]; abel
  · rfl

theorem rightSame_add (r : Ch) (f : Fr F) : Vertex.rvRightSame cf rd (Γ.ch r) (Γ.crossing r) ⟨iK, s, i, f⟩
      = Vertex.rvRightSame cf rd (Γ₀.ch r) (Γ₀.crossing r) ⟨iK, s, i, f⟩
        + Vertex.rvRightSame cf rd (Γ₁.ch r) (Γ₁.crossing r) ⟨iK, s, i, f⟩ := by
  unfold Vertex.rvRightSame
  rw [h .k1 r f trivial]
  split_ifs with c
  · rw [h .k2 r f c]; abel
  · rfl

theorem leftDiff_add (hd : 1 ≤ cf.maxDiag) (r : Ch) (f : Fr F) :
    Vertex.rvLeftDiff cf rd (Γ.ch r) (Γ.crossing r) ⟨iK, s, i, f⟩
      = Vertex.rvLeftDiff cf rd (Γ₀.ch r) (Γ₀.crossing r) ⟨iK, s, i, f⟩
        + Vertex.rvLeftDiff cf rd (Γ₁.ch r) (Γ₁.crossing r) ⟨iK, s, i, f⟩ := by
  unfold Vertex.rvLeftDiff
  split_ifs with c c'
  · abel
  · rw [h .k2 r f (by simp only [Has]; omega)]
  · rw [h .k2 r f (by simp only [Has]; omega), h .k3 r f (by simp only [Has]; omega)]; abel

theorem rightDiff_add (hd : 1 ≤ cf.maxDiag) (r : Ch) (f : Fr F) :
    Vertex.rvRightDiff cf rd (Γ.ch r) (Γ.crossing r) ⟨iK, s, i, f⟩
      = Vertex.rvRightDiff cf rd (Γ₀.ch r) (Γ₀.crossing r) ⟨iK, s, i, f⟩
        + Vertex.rvRightDiff cf rd (Γ₁.ch r) (Γ₁.crossing r) ⟨iK, s, i, f⟩ := by
  unfold Vertex.rvRightDiff
  split_ifs with c c'
  · abel
  · rw [h .k2b r f (by simp only [Has]; omega)]
  · rw [h .k2b r f (by simp only [Has]; omega), h .k3 r f (by simp only [Has]; omega)]; abel

variable (h0 : Γ.irred iK i s = Γ₀.irred iK i s + Γ₁.irred iK i s)
include h0

/-- The parts are additive in what is read. -/
theorem part_add (irr own : Bool) (f : Fr F) (q : Part) (hd : 1 ≤ cf.maxDiag) :
    (∃ y₀ y₁, part cf rd Γ₀ b irr own ⟨iK, s, i, f⟩ q = .ok y₀ ∧ part cf rd Γ₁ b irr own ⟨iK, s, i, f⟩ q = .ok y₁ ∧
      part cf rd Γ b irr own ⟨iK, s, i, f⟩ q = .ok (y₀ + y₁)) ∨
    (irr = true ∧ cf.maxDiag = 1 ∧ (q = .leftDiff ∨ q = .rightDiff) ∧
      part cf rd Γ₀ b irr own ⟨iK, s, i, f⟩ q = .error .undefined ∧
      part cf rd Γ₁ b irr own ⟨iK, s, i, f⟩ q = .error .undefined ∧
      part cf rd Γ b irr own ⟨iK, s, i, f⟩ q = .error .undefined) := by
  cases q
  · left
    simp only [part, Vertex.leftSame]
    rw [h0, leftSame_add cf rd Γ Γ₀ Γ₁ iK s i h, static_add cf rd Γ Γ₀ Γ₁ b iK s i h]
    split_ifs <;> exact ⟨_, _, rfl, rfl, by congr 1 <;> abel⟩
  · left
    simp only [part, Vertex.rightSame]
    rw [h0, rightSame_add cf rd Γ Γ₀ Γ₁ iK s i h, static_add cf rd Γ Γ₀ Γ₁ b iK s i h]
    split_ifs <;> exact ⟨_, _, rfl, rfl, by congr 1 <;> abel⟩
  · simp only [part, Vertex.leftDiff]
    rw [leftDiff_add cf rd Γ Γ₀ Γ₁ iK s i h hd, gammaRb_add cf rd Γ Γ₀ Γ₁ b iK s i h]
    split_ifs with c c'
    · exact .inl ⟨_, _, rfl, rfl, rfl⟩
    · exact .inr ⟨c, by omega, by simp, rfl, rfl, rfl⟩
    all_goals exact .inl ⟨_, _, rfl, rfl, by congr 1 <;> abel⟩
  · simp only [part, Vertex.rightDiff]
    rw [rightDiff_add cf rd Γ Γ₀ Γ₁ iK s i h hd, gammaRb_add cf rd Γ Γ₀ Γ₁ b iK s i h]
    split_ifs with c c'
    · exact .inl ⟨_, _, rfl, rfl, rfl⟩
    · exact .inr ⟨c, by omega, by simp, rfl, rfl, rfl⟩
    all_goals exact .inl ⟨_, _, rfl, rfl, by congr 1 <;> abel⟩

theorem value_add (irr : Bool) (f : Fr F) :
    Vertex.value cf rd Γ b irr ⟨iK, s, i, f⟩
      = Vertex.value cf rd Γ₀ b irr ⟨iK, s, i, f⟩ + Vertex.value cf rd Γ₁ b irr ⟨iK, s, i, f⟩ := by
  unfold Vertex.value
  dsimp only
  rw [h0, gammaRb_add cf rd Γ Γ₀ Γ₁ b iK s i h]
  simp only [chValue_add cf rd Γ Γ₀ Γ₁ b iK s i h]
  split_ifs <;> abel

end

end

section
variable {G F V : Type} [AddCommGroup V]

theorem interp_zero (N : Numerics G F V) (hN : Faithful N) (g : G) (k : KC) (f : Fr F) :
    N.interp g k (fun _ => 0) f = 0 := by
  have h := hN.additive g k (fun _ => 0) (fun _ => 0) f
  simpa using h

/-- The expanded object of a channel, read. -/
theorem read_expandClass (N : Numerics G F V) (hN : Faithful N) {R : Type} (rd : Reader R F V) (own : R → Rv G V)
    (bubble : Keldysh.Ch) (left : Bool) (spin : Nat) (this cross c : R) (k : KC) (iK i : Nat) (pt : Pt)
    (x : Rv G V)
    (hx : x = expandClass N rd own bubble left spin this cross)
    (hp : N.inside (x k).grid k pt = true) (y : Rv G V) :
    readExpanded N k x y ⟨iK, 0, i, N.freq (x k).grid k pt⟩
      = rd k this cross ⟨Keldysh.rotate bubble left iK, spin, i, N.freq (x k).grid k pt⟩ := by
  subst hx
  unfold readExpanded
  dsimp only
  rw [hN.node _ _ _ _ hp]
  simp only [expandClass] at hp ⊢
  rw [if_pos ⟨trivial, hp⟩]

/-- Without symmetry reduction and on its own grid, the expanded object returns what the stored one does. -/
theorem read_stored (N : Numerics G F V) (hN : Faithful N) (bubble : Keldysh.Ch) (left : Bool) (spin : Nat)
    (this cross : Rv G V) (k : KC) (iK i : Nat) (f : Fr F) (y y' : Rv G V)
    (hg : (if spin = 0 then (this (gridClass k)).grid else (cross (gridClass k)).grid) = (this k).grid) :
    readExpanded N k (expandClass N (readStored N) id bubble left spin this cross) y ⟨iK, 0, i, f⟩
      = readStored N k this y' ⟨Keldysh.rotate bubble left iK, spin, i, f⟩ := by
  unfold readExpanded
  have e : (expandClass N (readStored N) id bubble left spin this cross k).grid = (this k).grid := hg
  dsimp only
  rw [e]
  unfold readStored
  dsimp only
  apply hN.stored
  intro pt hpt
  have e2 : (if spin = 0 then (id this (gridClass k)).grid else (id cross (gridClass k)).grid) = (this k).grid := hg
  simp only [expandClass, e2, hpt, and_self, if_true]
  exact hN.node _ _ _ _ hpt

/-- The sum of two buffers on one grid, read. -/
theorem read_plus (N : Numerics G F V) (hN : Faithful N) (x y : Buf G V) (hg : x.grid = y.grid) (k : KC)
    (s iK i : Nat) (f : Fr F) :
    N.interp (x.plus y).grid k ((x.plus y).data s iK i) f
      = N.interp x.grid k (x.data s iK i) f + N.interp y.grid k (y.data s iK i) f := by
  rw [← hg]
  exact hN.additive _ _ _ _ _

end

end Verif.Expand
