import Verif.Postproc.Lemmas
import Mathlib.Data.Rat.Cast.Order
import Mathlib.Tactic.FieldSimp

/-
C136: the post-processed susceptibilities.
-/
namespace Verif.Postproc

open Perturb

variable {A S : Type}

/-- The intermediate vertex `Γ0 + Σ_c Γ∘Π_c∘Γ0` (classes one and two). -/
theorem inter_red (N : Numerics A S) (debug : Bool) (x l r : Vtx A) (todo : Bool × Bool × Bool) :
    let y := channels.foldl (fun x c => bubbleFunction N debug x l r c todo) x
    y.irred = x.irred ∧ ∀ c k, y.red c k = if computed debug todo k then N.bubble c k l r else x.red c k := by
  refine ⟨rfl, fun c k => ?_⟩
  simp only [channels, List.foldl_cons, List.foldl_nil, bubbleFunction]
  cases c <;> by_cases h : computed debug todo k <;> simp [h]

/-- `compute_postprocessed_susceptibilities` delivers `Γ0∘Π_r∘Γ0 + Γ0∘Π_r∘Γ∘Π_r∘Γ0` in every channel: what the
intermediate vertex contains of the other channels does not contribute. -/
theorem c136_post [AddMonoid A] (N : Numerics A S) (debug : Bool) (Γ bare : Vtx A) (hb : IsBare bare)
    (hN : RightLinear N bare) (r : Ch) : suscPost N debug Γ bare r = chiSpec N Γ bare r := by
  unfold suscPost
  set inter := channels.foldl (fun x c => bubbleFunction N debug x Γ bare c (true, true, false)) bare with hi
  have h1 := inter_red N debug bare Γ bare (true, true, false)
  have h2 := inter_red N debug bare bare inter (true, false, false)
  simp only [← hi] at h1
  show (channels.foldl (fun x c => bubbleFunction N debug x bare inter c (true, false, false)) bare).red r .k1 = _
  rw [h2.2 r .k1, if_pos (show computed debug (true, false, false) .k1 = true from rfl)]
  have : N.bubble r .k1 bare inter = N.bubble r .k1 bare (bare.plus (prod N r Γ bare)) := by
    apply hN.loc
    · show _ = bare.irred + 0
      rw [h1.1, add_zero]
    · show _ = bare.red r .k1 + (if r = r then _ else _)
      rw [h1.2 r .k1, hb, zero_add, if_pos (show computed debug (true, true, false) .k1 = true from rfl), if_pos rfl]
    · show _ = bare.red r .k2 + (if r = r then _ else _)
      rw [h1.2 r .k2, hb, zero_add, if_pos (show computed debug (true, true, false) .k2 = true from rfl), if_pos rfl]
  rw [this, hN.add]
  rfl

/-- With a second-order vertex: the same with Hartree propagators, plus the correction of one line of the bare bubble. -/
theorem c136_pt2 [AddMonoid A] (N NK : Numerics A S) (debug : Bool) (Γ bare : Vtx A) (hb : IsBare bare)
    (hN : RightLinear N bare) (r : Ch) :
    suscPostPT2 N NK debug Γ bare r = chiSpec N Γ bare r + NK.bubble r .k1 bare bare := by
  unfold suscPostPT2
  rw [c136_post N debug Γ bare hb hN r]
  have h := inter_red NK debug (Vtx.zero : Vtx A) bare bare (true, false, false)
  show _ + (channels.foldl (fun x c => bubbleFunction NK debug x bare bare c (true, false, false)) Vtx.zero).red r .k1 = _
  rw [h.2 r .k1, if_pos (show computed debug (true, false, false) .k1 = true from rfl)]

/-- What `susceptibilities_postprocessing` needs of the bubbles with two halves: the left vertex `Γ0∘Π_r∘Γ`, the
right vertex `Γ∘Π_r∘Γ0`, and that it does not matter which of the two bubbles of `Γ0∘Π_r∘Γ∘Π_r∘Γ0` is done first. -/
structure HalvesExact [Add A] [Zero A] (N : NumericsHalves A S) (debug : Bool) (Γ bare : Vtx A) : Prop where
  left : ∀ r, N.bubbleL r .k1 ⟨bubbleFunction N.toNumerics debug Vtx.zero bare Γ r,
    bubbleFunction N.toNumerics debug Vtx.zero Γ bare r⟩ bare = N.bubble r .k1 (prod N.toNumerics r bare Γ) bare
  right : ∀ r, N.bubbleR r .k1 bare ⟨bubbleFunction N.toNumerics debug Vtx.zero Γ bare r,
    bubbleFunction N.toNumerics debug Vtx.zero bare Γ r⟩ = N.bubble r .k1 bare (prod N.toNumerics r Γ bare)
  assoc : ∀ r, N.bubble r .k1 (prod N.toNumerics r bare Γ) bare = N.bubble r .k1 bare (prod N.toNumerics r Γ bare)

/-- `susceptibilities_postprocessing` delivers the same susceptibility, and the difference to the first class of the
given vertex. -/
theorem c136_parquet_partial [AddGroup A] (N : NumericsHalves A S) (debug : Bool) (half : A → A)
    (hhalf : ∀ x, half (x + x) = x) (Γ bare : Vtx A) (hN : HalvesExact N debug Γ bare) (r : Ch) :
    suscParquet N debug half Γ bare r =
      (chiSpec N.toNumerics Γ bare r, Γ.red r .k1 - chiSpec N.toNumerics Γ bare r) := by
  have e : (suscParquet N debug half Γ bare r).1 = chiSpec N.toNumerics Γ bare r := by
    show (bubbleFunction N.toNumerics debug Vtx.zero bare bare r).red r .k1 + half (_ + _) = _
    rw [hN.left, hN.right, hN.assoc, hhalf]
    have : (bubbleFunction N.toNumerics debug Vtx.zero bare bare r).red r .k1 = N.bubble r .k1 bare bare := by
      simp [bubbleFunction, computed]
    rw [this]; rfl
  rw [← e]; rfl

/-- The bare vertex it uses is that of the state in the Keldysh formalism, … -/
theorem c136_bare_keldysh (U : ℝ) : parquetBare true U = stateBare true U := rfl

/-- The bare vertex with a given irreducible part. -/
def bareVtx [Zero A] (u : A) : Vtx A := ⟨u, fun _ _ => 0⟩

/-- … but half of it in the Matsubara formalism: the contribution of the bare bubble, quadratic in the bare vertex, is
a quarter of what it should be. -/
theorem c136_bare_matsubara_refuted (N : Numerics ℝ S) (r : Ch) (b : ℝ) (hb : b ≠ 0)
    (hN : ∀ u u', N.bubble r .k1 (bareVtx u) (bareVtx u') = u * b * u') (U : ℝ) (hU : U ≠ 0) :
    4 * N.bubble r .k1 (bareVtx (parquetBare false U)) (bareVtx (parquetBare false U)) =
      N.bubble r .k1 (bareVtx (stateBare false U)) (bareVtx (stateBare false U)) ∧
    N.bubble r .k1 (bareVtx (parquetBare false U)) (bareVtx (parquetBare false U)) ≠
      N.bubble r .k1 (bareVtx (stateBare false U)) (bareVtx (stateBare false U)) := by
  have e1 : parquetBare false U = -U / 2 := rfl
  have e2 : stateBare false U = -U := rfl
  rw [hN, hN, e1, e2]
  refine ⟨by ring, fun h => ?_⟩
  have : U * U * b = 0 := by linarith
  simp [hU, hb] at this

/-! ### Numbers that meet the hypotheses -/

/-- One number per class: the bubble in channel `r` multiplies what is left of both vertices. -/
def sampleN : Numerics ℚ Unit where
  bubble r k x y := match k with
    | .k1 => x.irred * (y.irred + y.red r .k1 + y.red r .k2)
    | .k2 => (x.red r .k1 + 1) * y.irred
    | _ => 0
  loop _ := ()
  bare := 3
  hartree := ()

example : IsBare (bareVtx (3 : ℚ)) ∧ RightLinear sampleN (bareVtx 3) := by
  refine ⟨fun _ _ => rfl, ⟨?_, ?_⟩⟩
  · intro r x y h1 h2 h3
    simp only [sampleN, h1, h2, h3]
  · intro r x y
    simp only [sampleN, Vtx.plus]
    ring

example : chiSpec sampleN (bareVtx 3) (bareVtx 3) .a = 45 := by
  norm_num [chiSpec, sampleN, bareVtx, prod]

/-- Bubbles of the same numbers with both factors complete, associative by construction. -/
def sampleH : NumericsHalves ℚ Unit where
  bubble r _ x y := (x.irred + x.red r .k1) * 2 * (y.irred + y.red r .k1)
  loop _ := ()
  bare := 3
  hartree := ()
  bubbleL r _ x y := x.half1.red r .k1 * 2 * y.irred
  bubbleR r _ x y := x.irred * 2 * y.half1.red r .k1

example (Γ : Vtx ℚ) : HalvesExact sampleH true Γ (bareVtx 3) := by
  refine ⟨?_, ?_, ?_⟩ <;> intro r <;>
    simp [sampleH, bubbleFunction, computed, prod, bareVtx, Vtx.zero] <;> ring

example (x : ℚ) : (fun y : ℚ => y / 2) (x + x) = x := by ring

end Verif.Postproc
