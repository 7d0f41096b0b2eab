import Verif.Export.Integrand
import Verif.FileName.Lemmas
import Mathlib.Tactic.Linarith
import Mathlib.Tactic.Positivity
import Mathlib.Tactic.FieldSimp
import Mathlib.Tactic.NormNum

/-! # C181: saved integrands -/
namespace Verif.Export
open Verif.FileName

/-- `l` is an even sampling of the interval from `a` to `b` with both ends. -/
structure EvenSampling (l : List ℚ) (n : Nat) (a b : ℚ) : Prop where
  length : l.length = n
  first : l[0]? = some a
  last : l[n - 1]? = some b
  even : ∀ i x y, l[i]? = some x → l[i + 1]? = some y → y - x = (b - a) / (n - 1)

theorem sample_even (n : Nat) (hn : 2 ≤ n) (a b : ℚ) : EvenSampling (samplePoints n a b) n a b := by
  have hp : (0 : ℚ) < n - 1 := by
    have : (2 : ℚ) ≤ n := by exact_mod_cast hn
    linarith
  refine ⟨by simp [samplePoints], ?_, ?_, ?_⟩
  · have : 0 < n := by omega
    simp [samplePoints, List.getElem?_range this]
  · have h : n - 1 < n := by omega
    simp only [samplePoints, List.getElem?_map, List.getElem?_range h, Option.map_some, Option.some.injEq]
    rw [Nat.cast_sub (by omega), Nat.cast_one, mul_div_assoc, mul_div_cancel₀ _ hp.ne']
    ring
  · intro i x y hx hy
    have hi : i + 1 < n := by
      have := (List.getElem?_eq_some_iff.mp hy).1
      simpa [samplePoints] using this
    simp only [samplePoints, List.getElem?_map, List.getElem?_range (by omega : i < n), List.getElem?_range hi,
      Option.map_some, Option.some.injEq] at hx hy
    subst hx hy
    push_cast
    field_simp
    ring

/-- C181: the standard grids sample evenly, with both ends, twice the box of the bosonic frequency (`K1`) or the box of
the fermionic frequency (`K2`, `K3`) and twice the box of the self-energy. -/
theorem c181_points_partial (b : Boxes) (wl wu : ℚ) :
    (∃ l, integrandPoints b .k1 = .ok l ∧ EvenSampling l 10000 (2 * b.k1.1) (2 * b.k1.2)) ∧
    (∃ l, integrandPoints b .k2 = .ok l ∧ EvenSampling l 1000 b.k2.1 b.k2.2) ∧
    (∃ l, integrandPoints b .k3 = .ok l ∧ EvenSampling l 100 b.k3.1 b.k3.2) ∧
    EvenSampling (selfPoints wl wu) 100000 (2 * wl) (2 * wu) := by
  refine ⟨⟨_, rfl, ?_⟩, ⟨_, rfl, ?_⟩, ⟨_, rfl, ?_⟩, ?_⟩
  · rw [mul_comm 2, mul_comm 2]; exact sample_even 10000 (by norm_num) _ _
  · exact sample_even 1000 (by norm_num) _ _
  · exact sample_even 100 (by norm_num) _ _
  · rw [mul_comm 2, mul_comm 2]; exact sample_even 100000 (by norm_num) _ _

/-- C181, refuted: for class `K2b` the standard grid is computed from variables that were never set. -/
theorem c181_points_refuted (b : Boxes) : integrandPoints b .k2b = .error .undefined := rfl

/-- The classes whose integrands the bubble function forms. -/
def IsBubble (c : KClass) : Prop := c = .k1 ∨ c = .k2 ∨ c = .k2b ∨ c = .k3

theorem mark_no_us (c : KClass) (x : Chan) : '_' ∉ classMark c ++ [x.ch] := by
  cases c <;> cases x <;> decide

theorem mark_inj {c d : KClass} (hc : IsBubble c) (hd : IsBubble d) (x y : Chan)
    (h : classMark c ++ [x.ch] = classMark d ++ [y.ch]) : c = d ∧ x = y := by
  unfold IsBubble at hc hd
  rcases hc with rfl | rfl | rfl | rfl <;> rcases hd with rfl | rfl | rfl | rfl <;> cases x <;> cases y <;>
    revert h <;> decide

/-- C181: two integrands whose files have the same name agree in class, channel, Keldysh and internal indices, and to six
decimals in the bosonic frequency and in the one fermionic frequency that is part of the name. -/
theorem c181_name_partial (dir pre : Str) (l m : Label) (hl : IsBubble l.cls) (hm : IsBubble m.cls)
    (h : integrandName dir pre l = integrandName dir pre m) :
    l.cls = m.cls ∧ l.chan = m.chan ∧ l.i0 = m.i0 ∧ l.i2 = m.i2 ∧ Same6 l.w m.w ∧ l.iIn = m.iIn ∧
    (l.cls = .k2 → Same6 l.v m.v) ∧ (l.cls = .k3 → Same6 l.vp m.vp) := by
  unfold integrandName at h
  have h := List.append_cancel_left h
  simp only [List.append_assoc] at h
  have h := List.append_cancel_left (List.append_cancel_left h)
  have us : '_' ∉ ['-', '0', '1', '2', '3', '4', '5', '6', '7', '8', '9'] := by decide
  have us' : '_' ∉ ['.', '-', '0', '1', '2', '3', '4', '5', '6', '7', '8', '9'] := by decide
  have dt : '.' ∉ ['-', '0', '1', '2', '3', '4', '5', '6', '7', '8', '9'] := by decide
  have e0 : "_i0=".toList = '_' :: "i0=".toList := rfl
  have e2 : "_i2=".toList = '_' :: "i2=".toList := rfl
  have ew : "_w=".toList = '_' :: "w=".toList := rfl
  have ei : "_i_in=".toList = '_' :: "i_in=".toList := rfl
  have eh : ".h5".toList = '.' :: "h5".toList := rfl
  rw [e0, e2, ew, ei, eh] at h
  simp only [List.cons_append] at h
  obtain ⟨h1, h⟩ := sep_inj (a := classMark l.cls ++ [l.chan.ch]) (b := classMark m.cls ++ [m.chan.ch])
    (mark_no_us _ _) (mark_no_us _ _) (by simpa using h)
  obtain ⟨hc, hx⟩ := mark_inj hl hm _ _ h1
  have strip2 : ∀ {a b : Char} {r s : Str}, a :: b :: r = a :: b :: s → r = s := by simp
  have strip3 : ∀ {a b c : Char} {r s : Str}, a :: b :: c :: r = a :: b :: c :: s → r = s := by simp
  have strip5 : ∀ {a b c d e : Char} {r s : Str}, a :: b :: c :: d :: e :: r = a :: b :: c :: d :: e :: s → r = s := by simp
  obtain ⟨h2, h⟩ := int_field us (strip3 h)
  obtain ⟨h3, h⟩ := int_field us (strip3 h)
  have h := strip2 h
  refine ⟨hc, hx, h2, h3, ?_⟩
  unfold legMark at h
  rw [← hc] at h
  by_cases k2 : l.cls = .k2
  · simp only [k2, if_true, List.cons_append] at h
    obtain ⟨h4, h⟩ := double_field us' h
    obtain ⟨h5, h⟩ := double_field us' (List.cons.inj (List.cons.inj h).2).2
    obtain ⟨h6, -⟩ := int_field dt (strip5 h)
    exact ⟨h4, h6, fun _ => h5, fun k => by rw [k2] at k; cases k⟩
  · by_cases k3 : l.cls = .k3
    · simp only [k3, if_true, List.cons_append, reduceCtorEq, if_false] at h
      obtain ⟨h4, h⟩ := double_field us' h
      obtain ⟨h5, h⟩ := double_field us' (List.cons.inj (List.cons.inj (List.cons.inj h).2).2).2
      obtain ⟨h6, -⟩ := int_field dt (strip5 h)
      exact ⟨h4, h6, fun k => absurd k k2, fun _ => h5⟩
    · simp only [k2, k3, if_false, List.nil_append] at h
      obtain ⟨h4, h⟩ := double_field us' h
      obtain ⟨h6, -⟩ := int_field dt (strip5 h)
      exact ⟨h4, h6, fun k => absurd k k2, fun k => absurd k k3⟩

/-- C181: a saved integrand is read back with its values, as long as nothing of the same name is saved later; other
files are left as they were, and ranks other than 0 write nothing. -/
theorem c181_saved (rank : Nat) (n : Str) (freqs : List ℚ) (f : ℚ → ℚ) (d : Folder) :
    saveSamples 0 n freqs f d n = some (freqs.map fun x => (x, f x)) ∧
    (∀ k, k ≠ n → saveSamples rank n freqs f d k = d k) ∧
    (rank ≠ 0 → saveSamples rank n freqs f d = d) := by
  refine ⟨by simp [saveSamples], fun k hk => ?_, fun h => by simp [saveSamples, h]⟩
  unfold saveSamples
  split_ifs <;> simp [hk]

/-- C181: with distinguishable labels an earlier integrand survives the saving of a later one. -/
theorem c181_kept_partial (dir pre : Str) (l m : Label) (hl : IsBubble l.cls) (hm : IsBubble m.cls)
    (hne : l.cls ≠ m.cls ∨ l.chan ≠ m.chan ∨ l.i0 ≠ m.i0 ∨ l.i2 ≠ m.i2 ∨ ¬ Same6 l.w m.w ∨ l.iIn ≠ m.iIn)
    (fl fm : List ℚ) (f g : ℚ → ℚ) (d : Folder) :
    saveSamples 0 (integrandName dir pre m) fm g (saveSamples 0 (integrandName dir pre l) fl f d)
      (integrandName dir pre l) = some (fl.map fun x => (x, f x)) := by
  have hn : integrandName dir pre l ≠ integrandName dir pre m := fun h => by
    obtain ⟨a, b, c, e, g', i, -⟩ := c181_name_partial dir pre l m hl hm h
    tauto
  rw [(c181_saved 0 _ fm g _).2.1 _ hn]
  exact (c181_saved 0 _ fl f d).1

/-- C181, refuted: integrands of class `K3` at different fermionic frequencies `v`, of `K2b` at different `vp`, and of
any class for different spin components share one file, so that the later one replaces the earlier one. -/
theorem c181_kept_refuted (dir pre : Str) (l m : Label) (h1 : m.cls = l.cls) (h2 : m.chan = l.chan) (h3 : m.i0 = l.i0)
    (h4 : m.i2 = l.i2) (h5 : m.w = l.w) (h6 : m.iIn = l.iIn) (h7 : l.cls = .k2 → m.v = l.v)
    (h8 : l.cls = .k3 → m.vp = l.vp) (fl fm : List ℚ) (f g : ℚ → ℚ) (d : Folder) :
    saveSamples 0 (integrandName dir pre m) fm g (saveSamples 0 (integrandName dir pre l) fl f d)
      (integrandName dir pre l) = some (fm.map fun x => (x, g x)) := by
  have e : integrandName dir pre m = integrandName dir pre l := by
    unfold integrandName legMark
    rw [h1, h2, h3, h4, h5, h6]
    by_cases k2 : l.cls = .k2
    · rw [h7 k2]; simp [k2]
    · by_cases k3 : l.cls = .k3
      · rw [h8 k3]; simp [k3]
      · simp [k2, k3]
  rw [e]
  simp [saveSamples]

/-- Two different integrands to which the refutation applies. -/
example : ∃ l m : Label, l.cls = .k3 ∧ l.v ≠ m.v ∧ integrandName [] [] l = integrandName [] [] m := by
  refine ⟨⟨.k3, .a, 7, 0, 0, 1, 2, 0, 0⟩, ⟨.k3, .a, 7, 0, 0, 5, 2, 0, 0⟩, rfl, by norm_num, rfl⟩

/-- The name of one integrand. -/
example : integrandName "d/".toList [] ⟨.k2, .p, 1, 0, 3 / 2, -1 / 4, 9, 0, 0⟩ =
    "d/integrand_K2p_i0=1_i2=0_w=1.500000_v=-0.250000_i_in=0.h5".toList := by decide +kernel

/-- C181: the name of a self-energy integrand determines its frequency to six decimals, and never is that of a bubble
integrand in the same place. -/
theorem c181_self (dir pre : Str) (v v' : ℚ) (l : Label) :
    (selfName dir pre v = selfName dir pre v' → Same6 v v') ∧ selfName dir pre v ≠ integrandName dir pre l := by
  constructor
  · intro h
    unfold selfName at h
    have h := List.append_cancel_left h
    simp only [List.append_assoc] at h
    exact showDouble_inj (List.append_cancel_right (List.append_cancel_left h))
  · intro h
    unfold selfName integrandName at h
    simp only [List.append_assoc] at h
    have h := List.append_cancel_left (List.append_cancel_left h)
    have e1 : "integrand_SE".toList = ['i','n','t','e','g','r','a','n','d','_','S','E'] := rfl
    have e2 : "integrand_K".toList = ['i','n','t','e','g','r','a','n','d','_','K'] := rfl
    rw [e1, e2] at h
    simp at h

/-- The sampling of a small box. -/
example : samplePoints 5 (-2) 2 = [-2, -1, 0, 1, 2] := by decide +kernel

end Verif.Export
