import Verif.Dense.Model
import Verif.Freqs.Props
import Mathlib.Tactic.Linarith
import Mathlib.Tactic.FieldSimp
import Mathlib.Tactic.Ring
import Mathlib.Tactic.NormNum
import Mathlib.Algebra.Order.Field.Basic
import Mathlib.Algebra.Order.Floor.Ring
import Mathlib.Algebra.Order.BigOperators.Group.List

namespace Verif.Dense
open Verif.Freqs (truncQ signFlip)

/-! ### C146: the grids of Matsubara frequencies -/

/-- A bosonic frequency is an even multiple of `π T`, a fermionic one an odd multiple. -/
def Matsubara (bosonic : Bool) (z : Int) : Prop := if bosonic then z % 2 = 0 else z % 2 = 1

/-- A number of grid points suits the kind of frequency. -/
def Suits (bosonic : Bool) (n : Nat) : Prop := 2 ≤ n ∧ if bosonic then n % 2 = 1 else n % 2 = 0

theorem guess_spacing {n : Nat} (h : 2 ≤ n) (r : ℚ) : (guess n r).spacing = 1 := by
  have : (n : ℚ) - 1 ≠ 0 := by
    have : (2 : ℚ) ≤ n := by exact_mod_cast h
    intro e; linarith
  simp only [Params.spacing, Params.toT, guess]
  field_simp; ring

theorem freq_eq {n : Nat} (h : 2 ≤ n) (r : ℚ) (i : Nat) : (guess n r).freq i = 2 * (i : ℚ) - ((n : ℚ) - 1) := by
  rw [Params.freq, guess_spacing h]
  simp only [Params.toT, Params.ofT, guess]; ring

theorem index_near {n : Nat} (h : 2 ≤ n) (r : ℚ) {i : Nat} {w : ℚ} (h1 : (guess n r).freq i - 1 / 5 ≤ w)
    (h2 : w < (guess n r).freq i + 9 / 5) : (guess n r).index w = i := by
  rw [freq_eq h] at h1 h2
  have e : ((guess n r).toT w - (guess n r).toT (guess n r).lower) / (guess n r).spacing + 1 / 10 =
      w / 2 + ((n : ℚ) - 1) / 2 + 1 / 10 := by
    rw [guess_spacing h]
    simp only [Params.toT, guess]; ring
  have hi : (0 : ℚ) ≤ i := by positivity
  rw [Params.index, e, truncQ, if_pos (by linarith), Int.floor_eq_iff]
  push_cast
  constructor <;> linarith

/-- The numbers of grid points of the executable suit the kinds of frequencies, for every value of the parameter. -/
theorem c146_counts (count : Nat) (h : 0 < count) (cls : Nat) (bosonic : Bool) : Suits bosonic (points count cls bosonic) := by
  unfold points Suits
  split <;> constructor <;> simp <;> omega

/-- The grid consists of exactly the Matsubara frequencies of its kind up to its limit, in increasing order, and does
not depend on the regulator; its construction succeeds. -/
theorem c146_points (bosonic : Bool) {n : Nat} (hs : Suits bosonic n) (r r' : ℚ) :
    guess n r = guess n r' ∧ build (guess n r) = .ok (guess n r).freqs ∧
      (∀ i j, i < j → (guess n r).freq i < (guess n r).freq j) ∧
      ∀ z : Int, (Matsubara bosonic z ∧ |z| ≤ (n : Int) - 1) ↔ ∃ i < n, (guess n r).freq i = z := by
  obtain ⟨h2, hp⟩ := hs
  have hmono : ∀ i j, i < j → (guess n r).freq i < (guess n r).freq j := by
    intro i j hij
    rw [freq_eq h2, freq_eq h2]
    have : (i : ℚ) < j := by exact_mod_cast hij
    linarith
  have hl : (guess n r).freqs.length = n := by simp [Params.freqs, guess]
  have hget : ∀ i < n, (guess n r).freqs.getD i 0 = (guess n r).freq i := by
    intro i hi
    have hi' : i < (guess n r).n := hi
    simp [Params.freqs, List.getD, hi']
  refine ⟨rfl, ?_, hmono, ?_⟩
  · have hne : (guess n r).freqs ≠ [] := by intro e; rw [e] at hl; simp at hl; omega
    have hd : doubleOccurrences (guess n r).freqs = .ok 0 := by
      unfold doubleOccurrences
      rw [if_neg hne, if_neg]
      simp only [List.any_eq_true, List.mem_range, beq_iff_eq, not_exists, not_and, hl]
      intro i hi
      rw [hget i (by omega), hget (i + 1) (by omega)]
      exact (hmono i (i + 1) (by omega)).ne
    unfold build; rw [hd]; rfl
  · intro z
    constructor
    · rintro ⟨hz, hb⟩
      have hb' := abs_le.1 hb
      refine ⟨((z + ((n : Int) - 1)) / 2).toNat, ?_, ?_⟩
      · omega
      · rw [freq_eq h2]
        have : (((z + ((n : Int) - 1)) / 2).toNat : Int) * 2 = z + ((n : Int) - 1) := by
          unfold Matsubara at hz
          cases bosonic <;> simp at hz hp <;> omega
        have h : (((z + ((n : Int) - 1)) / 2).toNat : ℚ) * 2 = z + ((n : ℚ) - 1) := by exact_mod_cast this
        linarith
    · rintro ⟨i, hi, e⟩
      rw [freq_eq h2] at e
      have e' : 2 * (i : Int) - ((n : Int) - 1) = z := by exact_mod_cast e
      refine ⟨?_, abs_le.2 ⟨by omega, by omega⟩⟩
      unfold Matsubara
      cases bosonic <;> simp at hp ⊢ <;> omega

theorem at_ok {V : Type} {n i : Nat} (h : i < n) (f : Nat → Res V) : at? n (i : Int) f = f i := by
  unfold at?; rw [if_pos ⟨by omega, by omega⟩]; simp

/-- Of the Matsubara frequencies of its kind, the box contains exactly those of the grid. -/
theorem box_iff {n : Nat} {bosonic : Bool} (hs : Suits bosonic n) (r : ℚ) {tol : ℚ} (ht : 0 < tol) (ht1 : tol ≤ 1) {z : Int} :
    inBox1 (guess n r) tol z = true ↔ |z| ≤ (n : Int) - 1 := by
  rw [inBox1, decide_eq_true_eq, ← Int.cast_abs]
  show ((|z| : Int) : ℚ) < (n : ℚ) - 1 + tol ↔ _
  constructor
  · intro h
    by_contra hn
    have : (n : Int) ≤ |z| := by omega
    have : (n : ℚ) ≤ (|z| : Int) := by exact_mod_cast this
    linarith
  · intro h
    have : ((|z| : Int) : ℚ) ≤ (n : ℚ) - 1 := by exact_mod_cast h
    linarith

/-- Looking up a Matsubara frequency of one axis: on the grid, the stored entry of that frequency; beyond it, zero. A
deviation of the argument from the exact value of less than the tolerance (and at most a fifth) does not matter. -/
theorem c146_one {V : Type} [Zero V] (bosonic : Bool) {n : Nat} (hs : Suits bosonic n) (r : ℚ) {tol : ℚ} (ht : 0 < tol)
    (ht1 : tol ≤ 1 / 5) (data : Nat → V) :
    (∀ i < n, ∀ w, |w - (guess n r).freq i| < tol → read1 (guess n r) tol data w = .ok (data i)) ∧
      (∀ z : Int, Matsubara bosonic z → (n : Int) - 1 < |z| → ∀ w : ℚ, |w - z| ≤ tol → read1 (guess n r) tol data w = .ok 0) := by
  obtain ⟨h2, hp⟩ := hs
  have hn : (2 : ℚ) ≤ n := by exact_mod_cast h2
  constructor
  · intro i hi w hw
    have hw' := abs_lt.1 hw
    have hf := freq_eq h2 r i
    have hi' : (i : ℚ) + 1 ≤ n := by exact_mod_cast hi
    have h0 : (0 : ℚ) ≤ i := by positivity
    have hb : inBox1 (guess n r) tol w = true := by
      simp only [inBox1, decide_eq_true_eq]
      have : (guess n r).upper = (n : ℚ) - 1 := rfl
      rw [this, abs_lt]
      constructor <;> linarith
    unfold read1
    rw [if_pos hb, index_near h2 r (i := i) (by linarith) (by linarith)]
    exact at_ok hi _
  · intro z _ hz w hw
    have hw' := abs_le.1 hw
    have hb : ¬ inBox1 (guess n r) tol w = true := by
      simp only [inBox1, decide_eq_true_eq, not_lt]
      have e : (guess n r).upper = (n : ℚ) - 1 := rfl
      rw [e]
      have hz1 : (n : ℚ) ≤ (|z| : Int) := by exact_mod_cast (by omega : (n : Int) ≤ |z|)
      rw [Int.cast_abs] at hz1
      have : |(z : ℚ)| ≤ |w| + |w - z| := by
        have := abs_sub_abs_le_abs_sub (z : ℚ) w
        rw [abs_sub_comm] at this; linarith
      linarith
    unfold read1
    rw [if_neg hb]

theorem signFlip_even (w : Int) (hw : w % 2 = 0) : signFlip (w : ℚ) = .ok (if w % 4 = 0 then 0 else -2) := by
  obtain ⟨f, c, hf, hc, hs, he⟩ := Verif.Freqs.c27_halves w hw
  rw [he]
  rw [Verif.Freqs.floor2b_eq] at hf
  rw [Verif.Freqs.ceil2b_eq] at hc
  have h1 := Except.ok.inj hf
  have h2 := Except.ok.inj hc
  congr 1
  split <;> omega

/-- The same for the class of two frequencies at exact Matsubara frequencies: the stored entry is read if the bosonic
frequency is on its grid and the fermionic one in the part of its grid that is mapped to itself by the sign flip
`v ↦ -v + correction`, which is the whole grid or the grid without its largest frequency; everything else is zero. -/
theorem c146_two {V : Type} [Zero V] {nb nf : Nat} (hb : Suits true nb) (hf : Suits false nf) (r r' : ℚ) {tol : ℚ}
    (ht : 0 < tol) (ht1 : tol ≤ 1 / 5) (data : Nat → Nat → V) (w v : Int) (hw : Matsubara true w) (hv : Matsubara false v) :
    ∃ c, signFlip (w : ℚ) = .ok c ∧ (c = 0 ∨ c = -2) ∧ (c = 0 ↔ w % 4 = 0) ∧
      ((|w| ≤ (nb : Int) - 1 ∧ |v| ≤ (nf : Int) - 1 ∧ |-v + c| ≤ (nf : Int) - 1) →
        ∃ i < nb, ∃ j < nf, (guess nb r).freq i = w ∧ (guess nf r').freq j = v ∧
          read2 (guess nb r) (guess nf r') tol data w v = .ok (data i j)) ∧
      (¬ (|w| ≤ (nb : Int) - 1 ∧ |v| ≤ (nf : Int) - 1 ∧ |-v + c| ≤ (nf : Int) - 1) →
        read2 (guess nb r) (guess nf r') tol data w v = .ok 0) := by
  have hw0 : w % 2 = 0 := by simpa [Matsubara] using hw
  have hv1 : v % 2 = 1 := by simpa [Matsubara] using hv
  obtain ⟨hb2, hbp⟩ := hb
  obtain ⟨hf2, hfp⟩ := hf
  simp at hbp hfp
  have hc := signFlip_even w hw0
  set c : Int := if w % 4 = 0 then 0 else -2 with hcd
  have hc2 : c = 0 ∨ c = -2 := by rw [hcd]; split <;> simp
  refine ⟨c, hc, hc2, by rw [hcd]; split <;> simp_all, ?_, ?_⟩
  · rintro ⟨h1, h2, h3⟩
    obtain ⟨i, hi, ei⟩ := ((c146_points true ⟨hb2, by simpa⟩ r r).2.2.2 w).1 ⟨hw, h1⟩
    obtain ⟨j, hj, ej⟩ := ((c146_points false ⟨hf2, by simpa⟩ r' r').2.2.2 v).1 ⟨hv, h2⟩
    refine ⟨i, hi, j, hj, ei, ej, ?_⟩
    have hbox : inBox2 (guess nb r) (guess nf r') tol w v = .ok true := by
      rw [inBox2, hc]
      have a1 := (box_iff (bosonic := true) ⟨hb2, by simpa⟩ r ht (by linarith) (z := w)).2 h1
      rw [inBox1, decide_eq_true_eq] at a1
      have h2' := abs_le.1 h2
      have h3' := abs_le.1 h3
      have b1 : -((nf : ℚ) - 1) ≤ v := by exact_mod_cast h2'.1
      have b2 : (v : ℚ) ≤ (nf : ℚ) - 1 + c := by
        have : v ≤ (nf : Int) - 1 + c := by omega
        exact_mod_cast this
      have a2 : (v : ℚ) > -(guess nf r').upper - tol := by
        show (v : ℚ) > -((nf : ℚ) - 1) - tol; linarith
      have a3 : (v : ℚ) < (guess nf r').upper + c + tol := by
        show (v : ℚ) < (nf : ℚ) - 1 + c + tol; linarith
      simp [a1, a2, a3, bind, Except.bind, pure, Except.pure]
    unfold read2
    rw [hbox]
    have e : ∀ x : Res V, (do if ← (Except.ok true : Res Bool) then x else return 0) = x := fun x => rfl
    rw [e]
    have x1 : (guess nb r).n = nb := rfl
    have x2 : (guess nf r').n = nf := rfl
    rw [x1, x2, ← ei, index_near hb2 r (i := i) (by linarith) (by linarith), at_ok hi,
      ← ej, index_near hf2 r' (i := j) (by linarith) (by linarith), at_ok hj]
  · intro hn
    have hbox : inBox2 (guess nb r) (guess nf r') tol w v = .ok false := by
      rw [inBox2, hc]
      show Except.ok _ = _
      congr 1
      rw [← Bool.not_eq_true]
      intro hx
      simp only [Bool.and_eq_true, decide_eq_true_eq] at hx
      obtain ⟨a1, a2, a3⟩ := hx
      have k1 := (box_iff (bosonic := true) ⟨hb2, by simpa⟩ r ht (by linarith) (z := w)).1
        (by rw [inBox1, decide_eq_true_eq]; exact a1)
      have a2' : -((nf : ℚ) - 1) - tol < v := a2
      have a3' : (v : ℚ) < (nf : ℚ) - 1 + c + tol := a3
      have k2 : -((nf : Int) - 1) - 1 < v := by
        have : -((nf : ℚ) - 1) - 1 < v := by linarith
        exact_mod_cast this
      have k3 : v < (nf : Int) - 1 + c + 1 := by
        have : (v : ℚ) < (nf : ℚ) - 1 + c + 1 := by linarith
        exact_mod_cast this
      refine hn ⟨k1, abs_le.2 ⟨by omega, by omega⟩, abs_le.2 ⟨by omega, by omega⟩⟩
    unfold read2
    rw [hbox]; rfl

/-- The same for the class of three frequencies. -/
theorem c146_three {V : Type} [Zero V] {nb nf : Nat} (hb : Suits true nb) (hf : Suits false nf) (r r' : ℚ) {tol : ℚ}
    (ht : 0 < tol) (ht1 : tol ≤ 1 / 5) (data : Nat → Nat → Nat → V) (w v vp : Int) (hw : Matsubara true w)
    (hv : Matsubara false v) (hvp : Matsubara false vp) :
    ((|w| ≤ (nb : Int) - 1 ∧ |v| ≤ (nf : Int) - 1 ∧ |vp| ≤ (nf : Int) - 1) →
        ∃ i < nb, ∃ j < nf, ∃ l < nf, (guess nb r).freq i = w ∧ (guess nf r').freq j = v ∧ (guess nf r').freq l = vp ∧
          read3 (guess nb r) (guess nf r') tol data w v vp = .ok (data i j l)) ∧
      (¬ (|w| ≤ (nb : Int) - 1 ∧ |v| ≤ (nf : Int) - 1 ∧ |vp| ≤ (nf : Int) - 1) →
        read3 (guess nb r) (guess nf r') tol data w v vp = .ok 0) := by
  have e : inBox3 (guess nb r) (guess nf r') tol w v vp = true ↔
      (|w| ≤ (nb : Int) - 1 ∧ |v| ≤ (nf : Int) - 1 ∧ |vp| ≤ (nf : Int) - 1) := by
    rw [← box_iff hb r ht (by linarith) (z := w), ← box_iff hf r' ht (by linarith) (z := v),
      ← box_iff hf r' ht (by linarith) (z := vp)]
    simp [inBox3, inBox1]
  constructor
  · intro h
    obtain ⟨h1, h2, h3⟩ := h
    obtain ⟨i, hi, ei⟩ := ((c146_points true hb r r).2.2.2 w).1 ⟨hw, h1⟩
    obtain ⟨j, hj, ej⟩ := ((c146_points false hf r' r').2.2.2 v).1 ⟨hv, h2⟩
    obtain ⟨l, hl, el⟩ := ((c146_points false hf r' r').2.2.2 vp).1 ⟨hvp, h3⟩
    refine ⟨i, hi, j, hj, l, hl, ei, ej, el, ?_⟩
    unfold read3
    rw [if_pos (e.2 ⟨h1, h2, h3⟩)]
    have x1 : (guess nb r).n = nb := rfl
    have x2 : (guess nf r').n = nf := rfl
    rw [x1, x2, ← ei, index_near hb.1 r (i := i) (by linarith) (by linarith), at_ok hi,
      ← ej, index_near hf.1 r' (i := j) (by linarith) (by linarith), at_ok hj,
      ← el, index_near hf.1 r' (i := l) (by linarith) (by linarith), at_ok hl]
  · intro h
    unfold read3
    rw [if_neg (fun hx => h (e.1 hx))]

/-- The part of the two-frequency data that is read is the largest one that the sign flip of the fermionic frequency
maps to itself: a frequency on the grid is read exactly if its image is on the grid, and then the image is read. For a
bosonic frequency that is twice an odd number, the entries at the largest fermionic frequency are never read. -/
theorem c146_flip {V : Type} [Zero V] {nb nf : Nat} (hb : Suits true nb) (hf : Suits false nf) (r r' : ℚ) {tol : ℚ}
    (ht : 0 < tol) (ht1 : tol ≤ 1 / 5) (w v c : Int) (hw : Matsubara true w) (hv : Matsubara false v)
    (hc : signFlip (w : ℚ) = .ok c) :
    (inBox2 (guess nb r) (guess nf r') tol w v = .ok true ↔
        (∃ i < nb, (guess nb r).freq i = w) ∧ (∃ j < nf, (guess nf r').freq j = v) ∧
          ∃ j < nf, (guess nf r').freq j = ((-v + c : Int) : ℚ)) ∧
      inBox2 (guess nb r) (guess nf r') tol w ((-v + c : Int) : ℚ) = inBox2 (guess nb r) (guess nf r') tol w v ∧
      (w % 4 = 2 → ∀ data : Nat → Nat → V, read2 (guess nb r) (guess nf r') tol data w ((nf : ℚ) - 1) = .ok 0) := by
  have hw0 : w % 2 = 0 := by simpa [Matsubara] using hw
  have hv1 : v % 2 = 1 := by simpa [Matsubara] using hv
  have hfp : nf % 2 = 0 := by simpa using hf.2
  have hf2 := hf.1
  have hc' := signFlip_even w hw0
  rw [hc] at hc'
  have hce : c = if w % 4 = 0 then 0 else -2 := Except.ok.inj hc'
  have hc2 : c = 0 ∨ c = -2 := by rw [hce]; split <;> simp
  have hm : Matsubara false (-v + c) := by simp [Matsubara]; omega
  -- box of integers
  have key : ∀ u : Int, inBox2 (guess nb r) (guess nf r') tol w u =
      .ok (decide (|w| ≤ (nb : Int) - 1 ∧ |u| ≤ (nf : Int) - 1 ∧ |-u + c| ≤ (nf : Int) - 1)) := by
    intro u
    rw [inBox2, hc]
    show Except.ok _ = _
    congr 1
    rw [Bool.eq_iff_iff]
    simp only [Bool.and_eq_true, decide_eq_true_eq]
    rw [← box_iff hb r ht (by linarith) (z := w), inBox1, decide_eq_true_eq]
    refine and_congr_right fun _ => ?_
    show (-((nf : ℚ) - 1) - tol < u ∧ (u : ℚ) < (nf : ℚ) - 1 + c + tol) ↔ _
    constructor
    · rintro ⟨a2, a3⟩
      have k2 : -((nf : Int) - 1) - 1 < u := by
        have : -((nf : ℚ) - 1) - 1 < u := by linarith
        exact_mod_cast this
      have k3 : u < (nf : Int) - 1 + c + 1 := by
        have : (u : ℚ) < (nf : ℚ) - 1 + c + 1 := by linarith
        exact_mod_cast this
      exact ⟨abs_le.2 ⟨by omega, by omega⟩, abs_le.2 ⟨by omega, by omega⟩⟩
    · rintro ⟨h2, h3⟩
      have h2' := abs_le.1 h2
      have h3' := abs_le.1 h3
      have b1 : -((nf : ℚ) - 1) ≤ u := by exact_mod_cast h2'.1
      have b2 : (u : ℚ) ≤ (nf : ℚ) - 1 + c := by
        have : u ≤ (nf : Int) - 1 + c := by omega
        exact_mod_cast this
      constructor <;> linarith
  refine ⟨?_, ?_, ?_⟩
  · rw [key, ← (c146_points true hb r r).2.2.2 w, ← (c146_points false hf r' r').2.2.2 v,
      ← (c146_points false hf r' r').2.2.2 (-v + c)]
    constructor
    · intro h
      have := of_decide_eq_true (Except.ok.inj h)
      exact ⟨⟨hw, this.1⟩, ⟨hv, this.2.1⟩, ⟨hm, this.2.2⟩⟩
    · rintro ⟨h1, h2, h3⟩
      congr 1
      exact decide_eq_true ⟨h1.2, h2.2, h3.2⟩
  · rw [key, key]
    congr 1
    rw [Bool.eq_iff_iff]
    simp only [decide_eq_true_eq]
    have e : -(-v + c) + c = v := by ring
    rw [e]
    tauto
  · intro h4 data
    have h2 : c = -2 := by rw [hce, if_neg (by omega)]
    have e : ((nf : ℚ) - 1) = (((nf : Int) - 1 : Int) : ℚ) := by push_cast; ring
    unfold read2
    rw [e, key, decide_eq_false]
    · rfl
    · rintro ⟨-, -, h⟩
      have := (abs_le.1 h).1
      omega

/-- Without suitable numbers of grid points (an even number for bosonic frequencies), no grid point would be a
Matsubara frequency of the kind. -/
theorem c146_wrong_count {n : Nat} (h2 : 2 ≤ n) (r : ℚ) (bosonic : Bool) (hs : ¬ Suits bosonic n) (i : Nat) (z : Int)
    (hz : (guess n r).freq i = z) : ¬ Matsubara bosonic z := by
  rw [freq_eq h2] at hz
  have e' : 2 * (i : Int) - ((n : Int) - 1) = z := by exact_mod_cast hz
  unfold Matsubara
  unfold Suits at hs
  cases bosonic <;> simp [h2] at hs ⊢ <;> omega

/-- A concrete bosonic grid of five points and a fermionic one of four. -/
example : (guess 5 7).freqs = [-4, -2, 0, 2, 4] ∧ (guess 4 7).freqs = [-3, -1, 1, 3] ∧ Suits true 5 ∧ Suits false 4 := by
  refine ⟨by decide +kernel, by decide +kernel, ?_, ?_⟩ <;> unfold Suits <;> decide

/-- Concrete look-ups: on the grid, beyond it, and in the row where the largest fermionic frequency is not read. -/
example : read1 (guess 5 7) (1 / 100000) (fun i => (i : ℚ) + 1) 2 = .ok 4 ∧
    read1 (guess 5 7) (1 / 100000) (fun i => (i : ℚ) + 1) 6 = .ok 0 ∧
    read2 (guess 5 7) (guess 4 7) (1 / 100000) (fun i j => 10 * (i : ℚ) + j + 1) 4 3 = .ok 44 ∧
    read2 (guess 5 7) (guess 4 7) (1 / 100000) (fun i j => 10 * (i : ℚ) + j + 1) 2 1 = .ok 33 ∧
    read2 (guess 5 7) (guess 4 7) (1 / 100000) (fun i j => 10 * (i : ℚ) + j + 1) 2 3 = .ok 0 := by
  refine ⟨?_, ?_, ?_, ?_, ?_⟩ <;> decide +kernel

/-! ### C147: the checks of a list of frequencies -/

theorem getD_get {l : List ℚ} {i : Nat} (h : i < l.length) : l.getD i 0 = l[i] := by simp [List.getD, h]

/-- Among increasingly ordered frequencies the check reports a repetition exactly if there is one. -/
theorem c147_repetition_partial (l : List ℚ) (hl : l ≠ []) (hs : l.Pairwise (· ≤ ·)) :
    (doubleOccurrences l = .ok 0 ↔ l.Nodup) ∧ (doubleOccurrences l = .ok 1 ↔ ¬ l.Nodup) := by
  have hrange : (∃ i < l.length - 1, l.getD i 0 = l.getD (i + 1) 0) ↔ ¬ l.Nodup := by
    constructor
    · rintro ⟨i, hi, e⟩ hn
      rw [getD_get (by omega), getD_get (by omega)] at e
      have := (List.Nodup.getElem_inj_iff hn).1 e
      omega
    · intro hn
      by_contra hx
      push Not at hx
      apply hn
      have hlt : l.Pairwise (· < ·) := by
        rw [← List.isChain_iff_pairwise, List.isChain_iff_getElem]
        intro i hi
        have h1 := List.pairwise_iff_getElem.1 hs i (i + 1) (by omega) hi (by omega)
        have h2 := hx i (by omega)
        rw [getD_get (by omega), getD_get (by omega)] at h2
        exact lt_of_le_of_ne h1 h2
      exact hlt.imp fun h => h.ne
  have hany : ((List.range (l.length - 1)).any fun i => l.getD i 0 == l.getD (i + 1) 0) = true ↔ ¬ l.Nodup := by
    rw [← hrange]
    simp only [List.any_eq_true, List.mem_range, beq_iff_eq]
  unfold doubleOccurrences
  rw [if_neg hl]
  by_cases hn : l.Nodup
  · rw [if_neg (fun h => hany.1 h hn)]
    simp [hn]
  · rw [if_pos (hany.2 hn)]
    simp [hn]

/-- For frequencies in any other order a repetition can go unnoticed, and an empty list is read out of bounds. -/
theorem c147_repetition_refuted :
    doubleOccurrences [1, 2, 1] = .ok 0 ∧ ¬ ([1, 2, 1] : List ℚ).Nodup ∧ doubleOccurrences [] = .error .undefined := by
  refine ⟨by decide +kernel, by decide +kernel, by decide +kernel⟩

/-- For at least two frequencies, the measure of asymmetry vanishes exactly if the list is mirrored at zero, and it is
never negative. -/
theorem c147_symmetry_partial (l : List ℚ) (hl : 2 ≤ l.length) :
    (∃ d, asymmetry l = .ok d ∧ 0 ≤ d) ∧ (asymmetry l = .ok 0 ↔ l.reverse = l.map fun x => -x) := by
  have hne : l ≠ [] := by intro e; rw [e] at hl; simp at hl
  have hnn : ∀ x ∈ (List.range (l.length - 1)).map (fun i => |l.getD i 0 + l.getD (l.length - i - 1) 0|), (0:ℚ) ≤ x := by
    intro x hx
    simp only [List.mem_map] at hx
    obtain ⟨i, -, rfl⟩ := hx
    exact abs_nonneg _
  unfold asymmetry
  rw [if_neg hne]
  refine ⟨⟨_, rfl, List.sum_nonneg hnn⟩, ?_⟩
  have h0 : ∀ S : ℚ, ((.ok S : Res ℚ) = .ok 0 ↔ S = 0) := fun S => ⟨Except.ok.inj, fun h => by rw [h]⟩
  rw [h0]
  constructor
  · intro h
    have hall : ∀ x ∈ (List.range (l.length - 1)).map (fun i => |l.getD i 0 + l.getD (l.length - i - 1) 0|), x = 0 :=
      fun x hx => List.all_zero_of_le_zero_le_of_sum_eq_zero hnn h hx
    have hz : ∀ i < l.length, l.getD i 0 + l.getD (l.length - i - 1) 0 = 0 := by
      intro i hi
      by_cases hi' : i < l.length - 1
      · exact abs_eq_zero.1 (hall _ (List.mem_map.2 ⟨i, List.mem_range.2 hi', rfl⟩))
      · have e : i = l.length - 1 := by omega
        have := abs_eq_zero.1 (hall _ (List.mem_map.2 ⟨0, List.mem_range.2 (by omega), rfl⟩))
        rw [e, show l.length - (l.length - 1) - 1 = 0 by omega, add_comm]
        exact this
    apply List.ext_getElem (by simp)
    intro i h1 h2
    have h1' : i < l.length := by simpa using h1
    have := hz i h1'
    rw [getD_get h1', getD_get (by omega)] at this
    simp only [List.getElem_reverse, List.getElem_map]
    have e : l.length - 1 - i = l.length - i - 1 := by omega
    simp only [e]
    linarith
  · intro h
    apply List.sum_eq_zero
    intro x hx
    simp only [List.mem_map, List.mem_range] at hx
    obtain ⟨i, hi, rfl⟩ := hx
    have hi' : i < l.length := by omega
    have := congrArg (fun m => m.getD i 0) h
    rw [getD_get (by simpa), getD_get (by simpa), List.getElem_reverse,
      List.getElem_map] at this
    rw [getD_get hi', getD_get (by omega)]
    have e : l.length - 1 - i = l.length - i - 1 := by omega
    simp only [e] at this
    rw [this]; simp

/-- A single frequency different from zero is not reported. -/
theorem c147_symmetry_refuted : asymmetry [5] = .ok 0 ∧ ([5] : List ℚ).reverse ≠ ([5] : List ℚ).map fun x => -x := by
  constructor <;> decide +kernel

/-- Every grid of Matsubara frequencies passes both checks. -/
theorem c147_grids (bosonic : Bool) {n : Nat} (hs : Suits bosonic n) (r : ℚ) :
    doubleOccurrences (guess n r).freqs = .ok 0 ∧ asymmetry (guess n r).freqs = .ok 0 := by
  have h2 := hs.1
  have hl : (guess n r).freqs.length = n := by simp [Params.freqs, guess]
  have hpw : (guess n r).freqs.Pairwise (· < ·) := by
    unfold Params.freqs
    rw [List.pairwise_map]
    exact List.pairwise_lt_range.imp fun h => (c146_points bosonic hs r r).2.2.1 _ _ h
  have hne : (guess n r).freqs ≠ [] := by intro e; rw [e] at hl; simp at hl; omega
  refine ⟨(c147_repetition_partial _ hne (hpw.imp fun h => h.le)).1.2 (hpw.imp fun h => h.ne), ?_⟩
  rw [(c147_symmetry_partial _ (by omega)).2]
  apply List.ext_getElem (by simp)
  intro i h1 h2'
  have hi : i < n := by simpa [hl] using h1
  have hg : ∀ (k : Nat) (h : k < (guess n r).freqs.length), (guess n r).freqs[k] = 2 * (k : ℚ) - ((n : ℚ) - 1) := by
    intro k h
    rw [← freq_eq h2 r]; simp [Params.freqs]
  rw [List.getElem_reverse, List.getElem_map, hg, hg, hl]
  rw [Nat.cast_sub (by omega), Nat.cast_sub (by omega)]
  push_cast; ring

example : doubleOccurrences [1, 2, 2, 3] = .ok 1 ∧ asymmetry [-1, 0, 2] = .ok 1 := by
  constructor <;> decide +kernel

end Verif.Dense
