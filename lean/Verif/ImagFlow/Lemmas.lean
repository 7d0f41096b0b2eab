import Verif.ImagFlow.Spec
import Verif.Imag.PropsTotal
import Mathlib.Tactic.Module

namespace Verif.ImagFlow
open Verif.Symmetries
open Verif.Freqs (Ch Fr)

section
variable {R : Type} [CommRing R] [StarRing R] [Algebra ℝ R] [StarModule ℝ R] {ph : Bool}

/-! ### Symmetries of sums, multiples and mirror images -/

theorem sym_zero (hr : ph = true → ∀ r : R, star r = r) : Sym ⟨false, ph, false⟩ (⟨(0 : VF R)⟩ : Vertex ℤ R) := by
  constructor
  · intros; simp
  · intros; simp
  · intro h; cases h
  · intros; simp
  · intro h; cases h
  · intros; simp
  · intro _ h; exact hr h

theorem Sym.add' {V W : VF R} (hV : Sym ⟨false, ph, false⟩ (⟨V⟩ : Vertex ℤ R))
    (hW : Sym ⟨false, ph, false⟩ (⟨W⟩ : Vertex ℤ R)) : Sym ⟨false, ph, false⟩ (⟨V + W⟩ : Vertex ℤ R) where
  crossIn h c s α ν hs := by
    have a := hV.crossIn h c s α ν hs
    have b := hW.crossIn h c s α ν hs
    simp only [Pi.add_apply] at a b ⊢
    rw [a, b]; ring
  crossOut h c s α ν hs := by
    have a := hV.crossOut h c s α ν hs
    have b := hW.crossOut h c s α ν hs
    simp only [Pi.add_apply] at a b ⊢
    rw [a, b]; ring
  conjK h := by cases h
  conjM k h c s α ν hs := by
    have a := hV.conjM k h c s α ν hs
    have b := hW.conjM k h c s α ν hs
    simp only [Pi.add_apply] at a b ⊢
    rw [a, b, star_add]
  ph h := by cases h
  tr k h c s α ν hs := by
    have a := hV.tr k h c s α ν hs
    have b := hW.tr k h c s α ν hs
    simp only [Pi.add_apply] at a b ⊢
    rw [a, b, star_add]
  real := hV.real

theorem Sym.smul' (r : ℝ) {V : VF R} (hV : Sym ⟨false, ph, false⟩ (⟨V⟩ : Vertex ℤ R)) :
    Sym ⟨false, ph, false⟩ (⟨r • V⟩ : Vertex ℤ R) where
  crossIn h c s α ν hs := by
    have a := hV.crossIn h c s α ν hs
    simp only [Pi.smul_apply] at a ⊢
    rw [a, mul_smul_comm]
  crossOut h c s α ν hs := by
    have a := hV.crossOut h c s α ν hs
    simp only [Pi.smul_apply] at a ⊢
    rw [a, mul_smul_comm]
  conjK h := by cases h
  conjM k h c s α ν hs := by
    have a := hV.conjM k h c s α ν hs
    simp only [Pi.smul_apply] at a ⊢
    rw [a, star_smul, star_trivial r]
  ph h := by cases h
  tr k h c s α ν hs := by
    have a := hV.tr k h c s α ν hs
    simp only [Pi.smul_apply] at a ⊢
    rw [a, star_smul, star_trivial r]
  real := hV.real

theorem Sym.mirror' {V : VF R} (hV : Sym ⟨false, ph, false⟩ (⟨V⟩ : Vertex ℤ R)) :
    Sym ⟨false, ph, false⟩ (⟨mirror V⟩ : Vertex ℤ R) where
  crossIn h c s α ν hs := by have a := hV.crossIn (!h) c s α ν hs; simp only [mirror, Bool.not_xor] at a ⊢; exact a
  crossOut h c s α ν hs := by have a := hV.crossOut (!h) c s α ν hs; simp only [mirror, Bool.not_xor] at a ⊢; exact a
  conjK h := by cases h
  conjM k h c s α ν hs := by have a := hV.conjM k (!h) c s α ν hs; simp only [mirror, Bool.not_xor] at a ⊢; exact a
  ph h := by cases h
  tr k h c s α ν hs := hV.tr k (!h) c s α ν hs
  real := hV.real

theorem Sym.sub' {V W : VF R} (hV : Sym ⟨false, ph, false⟩ (⟨V⟩ : Vertex ℤ R))
    (hW : Sym ⟨false, ph, false⟩ (⟨W⟩ : Vertex ℤ R)) : Sym ⟨false, ph, false⟩ (⟨V - W⟩ : Vertex ℤ R) := by
  have : V - W = V + (-1 : ℝ) • W := by module
  rw [this]
  exact Sym.add' hV (Sym.smul' _ hW)

/-! ### Sums over channels -/

theorem full_sym {bare V : VF R} (hb : GoodV ph bare) (hV : GoodV ph V) :
    Sym ⟨false, ph, false⟩ (⟨full bare V⟩ : Vertex ℤ R) where
  crossIn h c s α ν hs := by
    have a := hb.sym.crossIn false c s α ν hs
    have x := hV.sym.crossIn false .a s α ν hs
    have y := hV.sym.crossIn false .p s α ν hs
    have z := hV.sym.crossIn false .t s α ν hs
    simp only [hb.same (xor _ _)] at a
    simp only [hV.same (xor _ _), crossed] at x y z
    simp only [full]
    rw [a, x, y, z]; ring
  crossOut h c s α ν hs := by
    have a := hb.sym.crossOut false c s α ν hs
    have x := hV.sym.crossOut false .a s α ν hs
    have y := hV.sym.crossOut false .p s α ν hs
    have z := hV.sym.crossOut false .t s α ν hs
    simp only [hb.same (xor _ _)] at a
    simp only [hV.same (xor _ _), crossed] at x y z
    simp only [full]
    rw [a, x, y, z]; ring
  conjK h := by cases h
  conjM k h c s α ν hs := by
    have a := hb.sym.conjM k false c s α ν hs
    have x := hV.sym.conjM k false .a s α ν hs
    have y := hV.sym.conjM k false .p s α ν hs
    have z := hV.sym.conjM k false .t s α ν hs
    simp only [hb.same (xor _ _)] at a
    simp only [hV.same (xor _ _)] at x y z
    simp only [full]
    rw [a, x, y, z]; simp only [star_add]
  ph h := by cases h
  tr k h c s α ν hs := by
    have a := hb.sym.tr k false c s α ν hs
    have x := hV.sym.tr k false .a s α ν hs
    have y := hV.sym.tr k false .p s α ν hs
    have z := hV.sym.tr k false .t s α ν hs
    simp only at a x y z
    simp only [full]
    rw [a, x, y, z]; simp only [star_add]
  real := hb.sym.real

theorem others_sym {V : VF R} (hV : GoodV ph V) : Sym ⟨false, ph, false⟩ (⟨others V⟩ : Vertex ℤ R) where
  crossIn h c s α ν hs := by
    have x := hV.sym.crossIn false .a s α ν hs
    have y := hV.sym.crossIn false .p s α ν hs
    have z := hV.sym.crossIn false .t s α ν hs
    simp only [hV.same (xor _ _), crossed] at x y z
    cases c <;> simp only [others, crossed] <;> simp only [x, y, z] <;> ring
  crossOut h c s α ν hs := by
    have x := hV.sym.crossOut false .a s α ν hs
    have y := hV.sym.crossOut false .p s α ν hs
    have z := hV.sym.crossOut false .t s α ν hs
    simp only [hV.same (xor _ _), crossed] at x y z
    cases c <;> simp only [others, crossed] <;> simp only [x, y, z] <;> ring
  conjK h := by cases h
  conjM k h c s α ν hs := by
    have x := hV.sym.conjM k false .a s α ν hs
    have y := hV.sym.conjM k false .p s α ν hs
    have z := hV.sym.conjM k false .t s α ν hs
    simp only [hV.same (xor _ _)] at x y z
    cases c <;> simp only [others, star_add]
    · rw [y, z]
    · rw [x, z]
    · rw [x, y]
  ph h := by cases h
  tr k h c s α ν hs := by
    have x := hV.sym.tr k false .a s α ν hs
    have y := hV.sym.tr k false .p s α ν hs
    have z := hV.sym.tr k false .t s α ν hs
    simp only at x y z
    cases c <;> simp only [others, star_add]
    · rw [y, z]
    · rw [x, z]
    · rw [x, y]
  real := hV.sym.real

theorem GoodV.zero (hr : ph = true → ∀ r : R, star r = r) : GoodV ph (0 : VF R) := ⟨sym_zero hr, fun _ => rfl⟩

theorem GoodV.add {V W : VF R} (hV : GoodV ph V) (hW : GoodV ph W) : GoodV ph (V + W) :=
  ⟨Sym.add' hV.sym hW.sym, fun h => by rw [Pi.add_apply, Pi.add_apply, hV.same h, hW.same h]⟩

theorem GoodV.smul (r : ℝ) {V : VF R} (hV : GoodV ph V) : GoodV ph (r • V) :=
  ⟨Sym.smul' r hV.sym, fun h => by rw [Pi.smul_apply, Pi.smul_apply, hV.same h]⟩

omit [Algebra ℝ R] [StarModule ℝ R] in
theorem goodV_of_mirror {V : VF R} (h : Sym ⟨false, ph, false⟩ (⟨V⟩ : Vertex ℤ R)) (m : mirror V = V) : GoodV ph V :=
  ⟨h, fun b => by cases b; rfl; exact (congrFun m false)⟩

theorem full_good {bare V : VF R} (hb : GoodV ph bare) (hV : GoodV ph V) : GoodV ph (full bare V) :=
  ⟨full_sym hb hV, fun _ => rfl⟩

/-! ### Self-energies -/

theorem Odd.zero : Odd ph (0 : SF R) := fun _ => by simp

theorem Odd.add {σ τ : SF R} (h : Odd ph σ) (k : Odd ph τ) : Odd ph (σ + τ) := fun v => by
  simp only [Pi.add_apply, star_add, h v, k v]; ring

theorem Odd.smul (r : ℝ) {σ : SF R} (h : Odd ph σ) : Odd ph (r • σ) := fun v => by
  simp only [Pi.smul_apply, star_smul, star_trivial, h v, mul_smul_comm]

/-! ### Lines -/

variable {u : Setup R} {Λ : ℝ}

theorem sign_sq (ph : Bool) : ((if ph then -1 else 1 : R)) * (if ph then -1 else 1) = 1 := by cases ph <;> simp

theorem good_G (hl : GoodLines ph u.lines) {σ : SF R} (h : Odd ph σ) : Odd ph (lineG u Λ σ) := fun v => by
  unfold lineG
  rw [hl.g, h v, ← mul_assoc, sign_sq, one_mul]

theorem good_E (hl : GoodLines ph u.lines) {σ dσ : SF R} (h : Odd ph σ) (hd : Odd ph dσ) : Odd ph (lineE u Λ σ dσ) :=
  fun v => by
    have e := good_G (Λ := Λ) hl h v
    unfold lineE
    rw [star_mul', star_mul', e, hd v]
    have : ∀ a b c g : R, a * b * (a * c) * (a * g) = (a * a) * (a * (b * c * g)) := fun a b c g => by ring
    rw [this, sign_sq, one_mul]

theorem good_S (hl : GoodLines ph u.lines) {σ dσ : SF R} (h : Odd ph σ) (hd : Odd ph dσ) : Odd ph (lineS u Λ σ dσ) :=
  fun v => by
    unfold lineS
    rw [star_add, good_E hl h hd v, hl.s, h v, ← mul_assoc (if ph then (-1 : R) else 1) _ (σ (-v)), sign_sq, one_mul, mul_add]

theorem good_pair (hu : u.ph = ph) (hl : GoodLines ph u.lines) {σ : SF R} (h : Odd ph σ) : Imag.GoodPair (pair u Λ σ) := by
  subst hu
  exact Imag.c157_pair _ _ _ _ (good_G hl h) (good_G hl h)

theorem good_dpair (hu : u.ph = ph) (hl : GoodLines ph u.lines) {σ dσ : SF R} (h : Odd ph σ) (hd : Odd ph dσ) :
    Imag.GoodPair (dpair u Λ σ dσ) := by
  subst hu
  exact Imag.c157_pair _ _ _ _ (good_G hl h) (good_S hl h hd)

/-! ### Bubbles -/

theorem mirror_bub (L M : VF R) (P : ℤ → ℤ → R) : mirror (bub u L M P) = bub u M L P := by
  funext h c s α ν
  cases h <;> rfl

theorem bub_sym {L M : VF R} {P : ℤ → ℤ → R} (hL : Sym ⟨false, ph, false⟩ (⟨L⟩ : Vertex ℤ R))
    (hM : Sym ⟨false, ph, false⟩ (⟨M⟩ : Vertex ℤ R)) (hP : Imag.GoodPair P) :
    Sym ⟨false, ph, false⟩ (⟨bub u L M P⟩ : Vertex ℤ R) :=
  Sym.smul' _ (Imag.c157_symmetric (Imag.c157_finite u.pos) hL hM hP)

theorem bub_good {L : VF R} {P : ℤ → ℤ → R} (hL : GoodV ph L) (hP : Imag.GoodPair P) : GoodV ph (bub u L L P) :=
  goodV_of_mirror (bub_sym hL.sym hL.sym hP) (mirror_bub _ _ _)

end
end Verif.ImagFlow
