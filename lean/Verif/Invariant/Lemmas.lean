import Verif.Invariant.Spec
import Verif.Loop.Props
import Verif.Heredity.Props
import Mathlib.MeasureTheory.Integral.IntervalIntegral.Basic
import Mathlib.Tactic.Module

namespace Verif.Invariant
open Verif.Symmetries Verif.Heredity Verif.Propagator MeasureTheory
open Verif.Freqs (Ch Fr legs)

variable {ph : Bool}

/-! ### Symmetries of sums, multiples and mirror images -/

theorem sym_zero : Sym ⟨true, ph, false⟩ (⟨(0 : VF)⟩ : Vertex ℝ ℂ) := by
  constructor <;> intros <;> simp_all

theorem Sym.add' {V W : VF} (hV : Sym ⟨true, ph, false⟩ (⟨V⟩ : Vertex ℝ ℂ)) (hW : Sym ⟨true, ph, false⟩ (⟨W⟩ : Vertex ℝ ℂ)) :
    Sym ⟨true, ph, false⟩ (⟨V + W⟩ : Vertex ℝ ℂ) where
  crossIn h c s α ν hs := by
    have a := hV.crossIn h c s α ν hs
    have b := hW.crossIn h c s α ν hs
    simp only [Pi.add_apply] at a b ⊢
    rw [a, b]; ring
  crossOut h c s α ν hs := by
    have a := hV.crossOut h c s α ν hs
    have b := hW.crossOut h c s α ν hs
    simp only [Pi.add_apply] at a b ⊢
    rw [a, b]; ring
  conjK k h c s α ν hs := by
    have a := hV.conjK k h c s α ν hs
    have b := hW.conjK k h c s α ν hs
    simp only [Pi.add_apply] at a b ⊢
    rw [a, b, star_add]; ring
  conjM h := by cases h
  ph k k' h c s α ν hs := by
    have a := hV.ph k k' h c s α ν hs
    have b := hW.ph k k' h c s α ν hs
    simp only [Pi.add_apply] at a b ⊢
    rw [a, b, star_add]; ring
  tr h := by cases h
  real h := by cases h

theorem Sym.smul' (r : ℝ) {V : VF} (hV : Sym ⟨true, ph, false⟩ (⟨V⟩ : Vertex ℝ ℂ)) :
    Sym ⟨true, ph, false⟩ (⟨r • V⟩ : Vertex ℝ ℂ) where
  crossIn h c s α ν hs := by
    have a := hV.crossIn h c s α ν hs
    simp only [Pi.smul_apply, Complex.real_smul] at a ⊢
    rw [a]; ring
  crossOut h c s α ν hs := by
    have a := hV.crossOut h c s α ν hs
    simp only [Pi.smul_apply, Complex.real_smul] at a ⊢
    rw [a]; ring
  conjK k h c s α ν hs := by
    have a := hV.conjK k h c s α ν hs
    simp only [Pi.smul_apply, Complex.real_smul] at a ⊢
    rw [a, star_mul', Complex.star_def, Complex.conj_ofReal]; ring
  conjM h := by cases h
  ph k k' h c s α ν hs := by
    have a := hV.ph k k' h c s α ν hs
    simp only [Pi.smul_apply, Complex.real_smul] at a ⊢
    rw [a, star_mul', Complex.star_def, Complex.conj_ofReal]; ring
  tr h := by cases h
  real h := by cases h

theorem Sym.mirror' {V : VF} (hV : Sym ⟨true, ph, false⟩ (⟨V⟩ : Vertex ℝ ℂ)) :
    Sym ⟨true, ph, false⟩ (⟨mirror V⟩ : Vertex ℝ ℂ) where
  crossIn h c s α ν hs := by have a := hV.crossIn (!h) c s α ν hs; simp only [mirror, Bool.not_xor] at a ⊢; exact a
  crossOut h c s α ν hs := by have a := hV.crossOut (!h) c s α ν hs; simp only [mirror, Bool.not_xor] at a ⊢; exact a
  conjK k h c s α ν hs := by have a := hV.conjK k (!h) c s α ν hs; simp only [mirror, Bool.not_xor] at a ⊢; exact a
  conjM h := by cases h
  ph k k' h c s α ν hs := hV.ph k k' (!h) c s α ν hs
  tr h := by cases h
  real h := by cases h

theorem Sym.sub' {V W : VF} (hV : Sym ⟨true, ph, false⟩ (⟨V⟩ : Vertex ℝ ℂ)) (hW : Sym ⟨true, ph, false⟩ (⟨W⟩ : Vertex ℝ ℂ)) :
    Sym ⟨true, ph, false⟩ (⟨V - W⟩ : Vertex ℝ ℂ) := by
  have : V - W = V + (-1 : ℝ) • W := by module
  rw [this]
  exact Sym.add' hV (Sym.smul' _ hW)

/-! ### Sums over channels -/

theorem full_sym {bare V : VF} (hb : GoodV ph bare) (hV : GoodV ph V) : Sym ⟨true, ph, false⟩ (⟨full bare V⟩ : Vertex ℝ ℂ) where
  crossIn h c s α ν hs := by
    have a := hb.sym.crossIn false c s α ν hs
    have x := hV.sym.crossIn false .a s α ν hs
    have y := hV.sym.crossIn false .p s α ν hs
    have z := hV.sym.crossIn false .t s α ν hs
    simp only [hb.same (xor _ _)] at a
    simp only [hV.same (xor _ _), crossed] at x y z
    simp only [full]
    rw [a, x, y, z]; ring
  crossOut h c s α ν hs := by
    have a := hb.sym.crossOut false c s α ν hs
    have x := hV.sym.crossOut false .a s α ν hs
    have y := hV.sym.crossOut false .p s α ν hs
    have z := hV.sym.crossOut false .t s α ν hs
    simp only [hb.same (xor _ _)] at a
    simp only [hV.same (xor _ _), crossed] at x y z
    simp only [full]
    rw [a, x, y, z]; ring
  conjK k h c s α ν hs := by
    have a := hb.sym.conjK k false c s α ν hs
    have x := hV.sym.conjK k false .a s α ν hs
    have y := hV.sym.conjK k false .p s α ν hs
    have z := hV.sym.conjK k false .t s α ν hs
    simp only [hb.same (xor _ _)] at a
    simp only [hV.same (xor _ _)] at x y z
    simp only [full]
    rw [a, x, y, z]; simp only [star_add]; ring
  conjM h := by cases h
  ph k k' h c s α ν hs := by
    have a := hb.sym.ph k k' false c s α ν hs
    have x := hV.sym.ph k k' false .a s α ν hs
    have y := hV.sym.ph k k' false .p s α ν hs
    have z := hV.sym.ph k k' false .t s α ν hs
    simp only at a x y z
    simp only [full]
    rw [a, x, y, z]; simp only [star_add]; ring
  tr h := by cases h
  real h := by cases h

theorem others_sym {V : VF} (hV : GoodV ph V) : Sym ⟨true, ph, false⟩ (⟨others V⟩ : Vertex ℝ ℂ) where
  crossIn h c s α ν hs := by
    have x := hV.sym.crossIn false .a s α ν hs
    have y := hV.sym.crossIn false .p s α ν hs
    have z := hV.sym.crossIn false .t s α ν hs
    simp only [hV.same (xor _ _), crossed] at x y z
    cases c <;> simp only [others, crossed] <;> simp only [x, y, z] <;> ring
  crossOut h c s α ν hs := by
    have x := hV.sym.crossOut false .a s α ν hs
    have y := hV.sym.crossOut false .p s α ν hs
    have z := hV.sym.crossOut false .t s α ν hs
    simp only [hV.same (xor _ _), crossed] at x y z
    cases c <;> simp only [others, crossed] <;> simp only [x, y, z] <;> ring
  conjK k h c s α ν hs := by
    have x := hV.sym.conjK k false .a s α ν hs
    have y := hV.sym.conjK k false .p s α ν hs
    have z := hV.sym.conjK k false .t s α ν hs
    simp only [hV.same (xor _ _)] at x y z
    cases c <;> simp only [others] <;> simp only [x, y, z, star_add] <;> ring
  conjM h := by cases h
  ph k k' h c s α ν hs := by
    have x := hV.sym.ph k k' false .a s α ν hs
    have y := hV.sym.ph k k' false .p s α ν hs
    have z := hV.sym.ph k k' false .t s α ν hs
    simp only at x y z
    cases c <;> simp only [others] <;> simp only [x, y, z, star_add] <;> ring
  tr h := by cases h
  real h := by cases h

theorem GoodV.zero : GoodV ph 0 := ⟨sym_zero, fun _ => rfl⟩

theorem GoodV.add {V W : VF} (hV : GoodV ph V) (hW : GoodV ph W) : GoodV ph (V + W) :=
  ⟨Sym.add' hV.sym hW.sym, fun h => by rw [Pi.add_apply, Pi.add_apply, hV.same h, hW.same h]⟩

theorem GoodV.smul (r : ℝ) {V : VF} (hV : GoodV ph V) : GoodV ph (r • V) :=
  ⟨Sym.smul' r hV.sym, fun h => by rw [Pi.smul_apply, Pi.smul_apply, hV.same h]⟩

theorem goodV_of_mirror {V : VF} (h : Sym ⟨true, ph, false⟩ (⟨V⟩ : Vertex ℝ ℂ)) (m : mirror V = V) : GoodV ph V :=
  ⟨h, fun b => by cases b; rfl; exact (congrFun m false)⟩

theorem full_good {bare V : VF} (hb : GoodV ph bare) (hV : GoodV ph V) : GoodV ph (full bare V) :=
  ⟨full_sym hb hV, fun _ => rfl⟩

theorem others_good {V : VF} (hV : GoodV ph V) : GoodV ph (others V) := ⟨others_sym hV, fun _ => rfl⟩

/-! ### Self-energies -/

theorem GoodS.zero : GoodS ph 0 0 := ⟨fun _ => by simp, fun _ _ => by simp⟩

theorem GoodS.add {e : ℝ} {σ τ : SF} (h : GoodS ph e σ) (k : GoodS ph 0 τ) : GoodS ph e (σ + τ) where
  anti v := by simp only [Prod.snd_add, Pi.add_apply, star_add, h.anti, k.anti]; ring
  ph hp v := by
    obtain ⟨a, b⟩ := h.ph hp v
    obtain ⟨c, d⟩ := k.ph hp v
    simp only [Prod.snd_add, Prod.fst_add, Pi.add_apply, star_add, a, b, c, d]
    constructor <;> push_cast <;> ring

theorem GoodS.smul (r : ℝ) {σ : SF} (h : GoodS ph 0 σ) : GoodS ph 0 (r • σ) where
  anti v := by
    simp only [Prod.smul_snd, Pi.smul_apply, Complex.real_smul, star_mul', h.anti, Complex.star_def, Complex.conj_ofReal]
    simp
  ph hp v := by
    obtain ⟨a, b⟩ := h.ph hp v
    simp only [Prod.smul_snd, Prod.smul_fst, Pi.smul_apply, Complex.real_smul, star_mul', a, b, Complex.star_def,
      Complex.conj_ofReal]
    constructor <;> push_cast <;> ring

/-! ### Lines -/

theorem phse {e : ℝ} {σ : SF} (h : GoodS true e σ) : PHSE e σ.at := fun v => (h.ph rfl v).1

theorem good_G {p : Par} {σ : SF} (h : GoodS ph p.eps σ) (hmu : ph = true → p.mu = 0) :
    AntiK (lineG p σ.at) ∧ (ph = true → PH (lineG p σ.at)) :=
  ⟨antiK_G _ _, fun hp => by subst hp; exact ph_G (phse h) (hmu rfl)⟩

theorem good_S {p : Par} {σ dσ : SF} (h : GoodS ph p.eps σ) (hd : GoodS ph 0 dσ) (hmu : ph = true → p.mu = 0) :
    AntiK (lineS p σ.at dσ.at) ∧ (ph = true → PH (lineS p σ.at dσ.at)) :=
  ⟨antiK_S _ fun v => hd.anti v, fun hp => by
    subst hp
    exact ph_S (phse h) (hmu rfl) (fun v => by simpa [SF.at] using (hd.ph rfl v).1) fun v => (hd.ph rfl v).2⟩

theorem good_E {p : Par} {σ dσ : SF} (h : GoodS ph p.eps σ) (hd : GoodS ph 0 dσ) (hmu : ph = true → p.mu = 0) :
    AntiK (lineE p σ.at dσ.at) ∧ (ph = true → PH (lineE p σ.at dσ.at)) := by
  refine ⟨fun v => ?_, fun hp v => ?_⟩
  · have h1 := antiK_G p σ.at v
    simp only [Complex.star_def] at h1
    have h2 : (starRingEnd ℂ) (dσ.at v).K = -(dσ.at v).K := hd.anti v
    simp only [lineE, katK, star_add, star_mul', Complex.star_def, h1, h2, Complex.conj_conj]
    ring
  · subst hp
    have g := gR_ph (p := p) (phse h) v
    have k := (ph_G (p := p) (phse h) (hmu rfl) v).2
    have d1 : (dσ.at (-v)).R = -star (dσ.at v).R := by simpa [SF.at] using (hd.ph rfl v).1
    have d2 : (dσ.at (-v)).K = -(dσ.at v).K := (hd.ph rfl v).2
    refine ⟨?_, ?_⟩
    · simp only [lineE, katR, g, d1, star_mul', Complex.star_def]
      ring
    · simp only [lineE, katK, g, k, d1, d2, Complex.star_def, map_neg, Complex.conj_conj]
      ring

theorem good_pair {p : Par} {σ : SF} (h : GoodS ph p.eps σ) (hmu : ph = true → p.mu = 0) : GoodPair ph (pair p σ) :=
  have g := good_G h hmu
  c149_pair g.1 g.1 (fun hp => ⟨g.2 hp, g.2 hp⟩) _

theorem good_dpair {p : Par} {σ dσ : SF} (h : GoodS ph p.eps σ) (hd : GoodS ph 0 dσ) (hmu : ph = true → p.mu = 0) :
    GoodPair ph (dpair p σ dσ) :=
  have g := good_G h hmu
  have s := good_S h hd hmu
  c149_pair g.1 s.1 (fun hp => ⟨g.2 hp, s.2 hp⟩) _

/-! ### Bubbles -/

theorem mirror_bub (L R : VF) (P : Pair) : mirror (bub L R P) = bub R L P := by
  funext h c s α ν
  cases h <;> rfl

theorem bub_sym {L R : VF} {P : Pair} (hL : Sym ⟨true, ph, false⟩ (⟨L⟩ : Vertex ℝ ℂ))
    (hR : Sym ⟨true, ph, false⟩ (⟨R⟩ : Vertex ℝ ℂ)) (hP : GoodPair ph P) :
    Sym ⟨true, ph, false⟩ (⟨bub L R P⟩ : Vertex ℝ ℂ) := c149_symmetric hL hR hP

theorem bub_good {L : VF} {P : Pair} (hL : GoodV ph L) (hP : GoodPair ph P) : GoodV ph (bub L L P) :=
  goodV_of_mirror (bub_sym hL.sym hL.sym hP) (mirror_bub _ _ _)

end Verif.Invariant
