import Verif.Family.Lemmas

/-! The sum of all loop orders at a state that need not solve the parquet equations. -/
namespace Verif.Family

open Keldysh (Ch)
open Multiloop (Known Chain Parquet Coupling others total sides middle norm_others norm_bubble norm_sides norm_middle)
open Filter Topology

variable {V P S : Type} [NormedAddCommGroup V] [NormedSpace ℝ V] [NormedAddCommGroup P] [NormedSpace ℝ P]
  [NormedAddCommGroup S] [NormedSpace ℝ S]

/-- The equation for the sum of all loop orders. -/
def Sums (k : Known V P S) (σ : S) (D : Ch → V) : Prop := D = k.one σ + sides k D + middle k D

section One
variable {k : Known V P S} {σ : S} {X : ℝ}

theorem sums_bound (hc : Chain k.pi (dbubble k σ)) (hX : Coupling k X) (hq : 4 * X + 2 * X ^ 2 < 1) {D : Ch → V} (hD : Sums k σ D) :
    ‖D‖ ≤ ‖k.one σ‖ / (1 - (4 * X + 2 * X ^ 2)) := by
  rw [le_div_iff₀ (by linarith)]
  have h1 := norm_sides k hX D
  have h2 := norm_middle k _ hc hX D
  have h3 := norm_add_le (k.one σ + sides k D) (middle k D)
  have h4 := norm_add_le (k.one σ) (sides k D)
  rw [← (hD : D = _)] at h3
  nlinarith

theorem sums_exists [CompleteSpace V] (hc : Chain k.pi (dbubble k σ)) (hX : Coupling k X) (hq : 4 * X + 2 * X ^ 2 < 1) : ∃ D, Sums k σ D := by
  have x0 : 0 ≤ X := le_trans (by positivity) (hX .a)
  set q := 4 * X + 2 * X ^ 2 with hqd
  have q0 : 0 ≤ q := by positivity
  have d0 : 0 < 1 - q := by linarith
  have lin : ∀ D, ‖sides k D + middle k D‖ ≤ q * ‖D‖ := fun D => by
    have h1 := norm_sides k hX D
    have h2 := norm_middle k _ hc hX D
    have h3 := norm_add_le (sides k D) (middle k D)
    rw [hqd]; linarith
  have C : Bse.Contracts (fun D => k.one σ + sides k D + middle k D) (‖k.one σ‖ / (1 - q)) q := by
    refine ⟨fun D hD => ?_, fun D D' _ _ => ?_, q0, hq⟩
    · rw [add_assoc]
      have h := norm_add_le (k.one σ) (sides k D + middle k D)
      have h2 := lin D
      have h3 := mul_le_mul_of_nonneg_left hD q0
      have e : ‖k.one σ‖ + q * (‖k.one σ‖ / (1 - q)) = ‖k.one σ‖ / (1 - q) := by field_simp; ring
      linarith
    · have e : k.one σ + sides k D + middle k D - (k.one σ + sides k D' + middle k D') = sides k (D - D') + middle k (D - D') := by
        rw [Multiloop.sides_sub, Multiloop.middle_sub]; abel
      rw [e]
      exact lin _
  obtain ⟨D, -, h, -⟩ := Bse.exists_fixed (by positivity) C
  exact ⟨D, h.symm⟩

theorem sums_unique (hc : Chain k.pi (dbubble k σ)) (hX : Coupling k X) (hq : 4 * X + 2 * X ^ 2 < 1) {D D' : Ch → V} (hD : Sums k σ D) (hD' : Sums k σ D') :
    D = D' := by
  have e : D - D' = sides k (D - D') + middle k (D - D') := by
    rw [Multiloop.sides_sub, Multiloop.middle_sub]
    conv_lhs => rw [(hD : D = _), (hD' : D' = _)]
    abel
  have h1 := norm_sides k hX (D - D')
  have h2 := norm_middle k _ hc hX (D - D')
  have h3 := norm_add_le (sides k (D - D')) (middle k (D - D'))
  rw [← e] at h3
  have h4 := norm_nonneg (D - D')
  have : ‖D - D'‖ = 0 := by nlinarith
  exact sub_eq_zero.1 (norm_eq_zero.1 this)

end One

section Two
variable {k : Known V P S} {σ : S} {x y g q : ℝ} {T T' : Ch → V}

theorem full_bound (hb : ‖k.bare‖ ≤ x) (hT : ‖T‖ ≤ y) : ‖(withState k T).full‖ ≤ x + 3 * y := by
  show ‖k.bare + total T‖ ≤ _
  have := Bse.norm_total T
  exact (norm_add_le _ _).trans (by linarith)

theorem full_diff : ‖(withState k T).full - (withState k T').full‖ ≤ 3 * ‖T - T'‖ := by
  show ‖k.bare + total T - (k.bare + total T')‖ ≤ _
  rw [add_sub_add_left_eq_sub, ← Bse.total_sub]
  exact Bse.norm_total _

/-- Near each other the sums of all loop orders differ by a multiple of the distance of the states. -/
theorem sums_lipschitz (hc : Chain k.pi (dbubble k σ)) (hx : ∀ r, ‖k.pi r‖ ≤ x) (hy : ∀ r, ‖dbubble k σ r‖ ≤ y)
    (hg : ‖(withState k T).full‖ ≤ g) (hg' : ‖(withState k T').full‖ ≤ g) (hq : 4 * (x * g) + 2 * (x * g) ^ 2 ≤ q) (q1 : q < 1)
    {D D' : Ch → V} (hD : Sums (withState k T) σ D) (hD' : Sums (withState k T') σ D') :
    ‖D - D'‖ ≤ (6 * y * g + (12 * x + 12 * x ^ 2 * g) * (y * g ^ 2 / (1 - q))) / (1 - q) * ‖T - T'‖ := by
  have x0 : 0 ≤ x := le_trans (by positivity) (hx .a)
  have y0 : 0 ≤ y := le_trans (by positivity) (hy .a)
  have g0 : 0 ≤ g := le_trans (by positivity) hg
  have d0 : 0 < 1 - q := by linarith
  set G := (withState k T).full with hG
  set G' := (withState k T').full with hG'
  have hd : ‖G - G'‖ ≤ 3 * ‖T - T'‖ := full_diff
  have cop : Coupling (withState k T) (x * g) := fun r => mul_le_mul (hx r) hg (norm_nonneg _) x0
  have cop' : Coupling (withState k T') (x * g) := fun r => mul_le_mul (hx r) hg' (norm_nonneg _) x0
  have b {f : V →L[ℝ] V →L[ℝ] V} {F : ℝ} (hf : ‖f‖ ≤ F) {a c : V} {A C : ℝ} (ha : ‖a‖ ≤ A) (hc : ‖c‖ ≤ C) : ‖f a c‖ ≤ F * A * C := by
    have A0 := (norm_nonneg _).trans ha
    have F0 : 0 ≤ F := le_trans (by positivity) hf
    refine (norm_bubble f a c).trans ?_
    gcongr
  set d := ‖T - T'‖ with hdd
  have dn : 0 ≤ d := norm_nonneg _
  -- the one-loop term
  have o1 : ‖(withState k T).one σ - (withState k T').one σ‖ ≤ 6 * y * g * d := by
    refine (pi_norm_le_iff_of_nonneg (by positivity)).2 fun r => ?_
    have e : ((withState k T).one σ - (withState k T').one σ) r = dbubble k σ r (G - G') G + dbubble k σ r G' (G - G') := by
      show dbubble k σ r G G - dbubble k σ r G' G' = _
      simp only [map_sub, _root_.sub_apply]
      abel
    rw [e]
    have h1 := b (hy r) hd hg
    have h2 := b (hy r) hg' hd
    have h3 := norm_add_le (dbubble k σ r (G - G') G) (dbubble k σ r G' (G - G'))
    nlinarith
  have o2 : ‖(withState k T').one σ‖ ≤ y * g ^ 2 := by
    refine (pi_norm_le_iff_of_nonneg (by positivity)).2 fun r => ?_
    have := b (hy r) hg' hg'
    refine le_trans this (le_of_eq (by ring))
  set M := y * g ^ 2 / (1 - q) with hM
  have M0 : 0 ≤ M := by positivity
  have bD : ‖D'‖ ≤ M := by
    have h1 := sums_bound (k := withState k T') (σ := σ) hc cop' (by linarith) hD'
    refine h1.trans ?_
    rw [hM]
    gcongr
  have s1 : ‖sides (withState k T) D' - sides (withState k T') D'‖ ≤ 12 * x * M * d := by
    refine (pi_norm_le_iff_of_nonneg (by positivity)).2 fun r => ?_
    have e : (sides (withState k T) D' - sides (withState k T') D') r = k.pi r (others r D') (G - G') + k.pi r (G - G') (others r D') := by
      show k.pi r (others r D') G + k.pi r G (others r D') - (k.pi r (others r D') G' + k.pi r G' (others r D')) = _
      simp only [map_sub, _root_.sub_apply]
      abel
    rw [e]
    have ho : ‖others r D'‖ ≤ 2 * M := (norm_others r D').trans (by linarith)
    have h1 := b (hx r) ho hd
    have h2 := b (hx r) hd ho
    have h3 := norm_add_le (k.pi r (others r D') (G - G')) (k.pi r (G - G') (others r D'))
    nlinarith
  have m1 : ‖middle (withState k T) D' - middle (withState k T') D'‖ ≤ 12 * x ^ 2 * g * M * d := by
    refine (pi_norm_le_iff_of_nonneg (by positivity)).2 fun r => ?_
    have c1 : middle (withState k T) D' r = k.pi r G (k.pi r (others r D') G) := Multiloop.c139_central (withState k T) _ hc D' r
    have c2 : middle (withState k T') D' r = k.pi r G' (k.pi r (others r D') G') := Multiloop.c139_central (withState k T') _ hc D' r
    have e : (middle (withState k T) D' - middle (withState k T') D') r = k.pi r (G - G') (k.pi r (others r D') G) + k.pi r G' (k.pi r (others r D') (G - G')) := by
      rw [Pi.sub_apply, c1, c2]
      simp only [map_sub, _root_.sub_apply]
      abel
    rw [e]
    have ho : ‖others r D'‖ ≤ 2 * M := (norm_others r D').trans (by linarith)
    have h1 := b (hx r) hd (b (hx r) ho hg)
    have h2 := b (hx r) hg' (b (hx r) ho hd)
    have h3 := norm_add_le (k.pi r (G - G') (k.pi r (others r D') G)) (k.pi r G' (k.pi r (others r D') (G - G')))
    refine h3.trans ((add_le_add h1 h2).trans (le_of_eq (by ring)))
  have e : D - D' = ((withState k T).one σ - (withState k T').one σ) + (sides (withState k T) (D - D') + middle (withState k T) (D - D')) +
      (sides (withState k T) D' - sides (withState k T') D') + (middle (withState k T) D' - middle (withState k T') D') := by
    rw [Multiloop.sides_sub, Multiloop.middle_sub]
    conv_lhs => rw [(hD : D = _), (hD' : D' = _)]
    abel
  have n1 := norm_add_le (((withState k T).one σ - (withState k T').one σ) + (sides (withState k T) (D - D') + middle (withState k T) (D - D')) +
      (sides (withState k T) D' - sides (withState k T') D')) (middle (withState k T) D' - middle (withState k T') D')
  have n2 := norm_add_le (((withState k T).one σ - (withState k T').one σ) + (sides (withState k T) (D - D') + middle (withState k T) (D - D')))
      (sides (withState k T) D' - sides (withState k T') D')
  have n3 := norm_add_le ((withState k T).one σ - (withState k T').one σ) (sides (withState k T) (D - D') + middle (withState k T) (D - D'))
  have n4 := norm_add_le (sides (withState k T) (D - D')) (middle (withState k T) (D - D'))
  have n5 := norm_sides (withState k T) cop (D - D')
  have n6 := norm_middle (withState k T) _ hc cop (D - D')
  rw [← e] at n1
  have n7 := mul_le_mul_of_nonneg_right hq (norm_nonneg (D - D'))
  rw [div_mul_eq_mul_div, le_div_iff₀ d0]
  nlinarith

end Two

end Verif.Family
