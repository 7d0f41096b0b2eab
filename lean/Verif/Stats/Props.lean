import Verif.Stats.Model
import Mathlib.Tactic.NormNum
import Mathlib.Tactic.IntervalCases

/-
C83: the statistics recorded in the result file.
-/
namespace Verif.Stats

/-- The statistics group is complete, with `n` layers. -/
def Complete (n : Nat) (f : File) : Prop := f.grp = true ∧ ∀ x, ∃ d, f.ds x = some d ∧ d.layers = n

/-- What one write does if it completes. -/
def written (s : Stats) (x : Name) : ℚ := match x with
  | .seIterations => s.seIterations
  | .time => s.time
  | .rkAttempts => s.time

theorem write_later {f : File} {n it : Nat} (hf : Complete n f) (h1 : 1 < it) (hn : it < n) (s : Stats) :
    ∃ g, write f s it n = (g, none) ∧ Complete n g ∧
      ∀ x k, read g x k = if k = it then some (written s x) else read f x k := by
  obtain ⟨hg, hd⟩ := hf
  obtain ⟨d1, e1, l1⟩ := hd .seIterations
  obtain ⟨d2, e2, l2⟩ := hd .time
  obtain ⟨d3, e3, l3⟩ := hd .rkAttempts
  refine ⟨⟨true, fun x => match x with
    | .seIterations => some ⟨d1.layers, fun k => if k = it then some (s.seIterations : ℚ) else d1.row k⟩
    | .time => some ⟨d2.layers, fun k => if k = it then some s.time else d2.row k⟩
    | .rkAttempts => some ⟨d3.layers, fun k => if k = it then some s.time else d3.row k⟩⟩, ?_, ?_, ?_⟩
  · simp [write, writeOps, layerOps, run, step, h1, hg, hn, e1, e2, e3, l1, l2, l3]
    funext x
    cases x <;> simp
  · refine ⟨rfl, fun x => ?_⟩
    cases x
    · exact ⟨_, rfl, l1⟩
    · exact ⟨_, rfl, l2⟩
    · exact ⟨_, rfl, l3⟩
  · intro x k
    cases x <;> simp [read, written, e1, e2, e3]

theorem write_first {n : Nat} (hn : 1 < n) (s : Stats) :
    ∃ g, write .empty s 1 n = (g, none) ∧ Complete n g ∧
      ∀ x k, read g x k = if k = 1 then some (written s x) else none := by
  refine ⟨⟨true, fun x => match x with
    | .seIterations => some ⟨n, fun k => if k = 1 then some (s.seIterations : ℚ) else none⟩
    | .time => some ⟨n, fun k => if k = 1 then some s.time else none⟩
    | .rkAttempts => some ⟨n, fun k => if k = 1 then some s.time else none⟩⟩, ?_, ?_, ?_⟩
  · simp [write, writeOps, layerOps, run, step, File.empty, hn]
    funext x
    cases x <;> simp
  · refine ⟨rfl, fun x => ?_⟩
    cases x <;> exact ⟨_, rfl, rfl⟩
  · intro x k
    cases x <;> simp [read, written]

theorem flow_later {n : Nat} : ∀ (ss : List Stats) (it : Nat) (f : File), Complete n f → 1 ≤ it →
    it + ss.length < n → ∃ g, flowWrites f it n ss = (g, none) ∧ Complete n g ∧
      ∀ x k, read g x k = if it < k ∧ k ≤ it + ss.length then (ss[k - it - 1]?).map (written · x)
        else read f x k := by
  intro ss
  induction ss with
  | nil =>
    intro it f hf h1 hn
    refine ⟨f, rfl, hf, fun x k => ?_⟩
    rw [if_neg]
    simp only [List.length_nil]; omega
  | cons s ss ih =>
    intro it f hf h1 hn
    simp only [List.length_cons] at hn
    obtain ⟨g, e, hg, hr⟩ := write_later hf (it := it + 1) (by omega) (by omega) s
    obtain ⟨g', e', hg', hr'⟩ := ih (it + 1) g hg (by omega) (by omega)
    refine ⟨g', by simp only [flowWrites, e, e'], hg', fun x k => ?_⟩
    rw [hr' x k, hr x k]
    simp only [List.length_cons]
    by_cases hk : k = it + 1
    · subst hk
      rw [if_neg (by omega), if_pos rfl, if_pos (by omega)]
      simp
    · by_cases hk2 : it + 1 < k ∧ k ≤ it + 1 + ss.length
      · rw [if_pos hk2, if_pos (by omega)]
        obtain ⟨j, rfl⟩ : ∃ j, k = it + 2 + j := ⟨k - it - 2, by omega⟩
        simp [show it + 2 + j - it - 1 = j + 1 by omega, show it + 2 + j - (it + 1) - 1 = j by omega]
      · rw [if_neg hk2, if_neg hk, if_neg (by omega)]

/-- C83 (partial: iterations and times of a flow that is never interrupted).  For every flow started from layer 0,
with any number of steps below the number of layers, all writes complete and every layer holds the number of
self-energy iterations and the time of its own step; layers not reached hold nothing.
Missing: the number of attempts, and flows that are continued; see below. -/
theorem c83_partial (n : Nat) (ss : List Stats) (hn : ss.length < n) :
    ∃ g, flowWrites .empty 0 n ss = (g, none) ∧
      ∀ k, read g .seIterations k = (if k = 0 then none else (ss[k - 1]?).map (fun s => (s.seIterations : ℚ))) ∧
        read g .time k = (if k = 0 then none else (ss[k - 1]?).map Stats.time) := by
  cases ss with
  | nil =>
    refine ⟨.empty, rfl, fun k => ?_⟩
    simp [read, File.empty]
  | cons s ss =>
    simp only [List.length_cons] at hn
    obtain ⟨g, e, hg, hr⟩ := write_first (n := n) (by omega) s
    obtain ⟨g', e', hg', hr'⟩ := flow_later ss 1 g hg (le_refl _) (by omega)
    have e1 : write .empty s (0 + 1) n = (g, none) := e
    refine ⟨g', by simp only [flowWrites, e1]; exact e', fun k => ?_⟩
    have key : ∀ x, read g' x k = if k = 0 then none else ((s :: ss)[k - 1]?).map (written · x) := by
      intro x
      rw [hr' x k, hr x k]
      rcases Nat.lt_or_ge k 2 with hk | hk
      · rcases Nat.lt_or_ge k 1 with hk0 | hk1
        · have : k = 0 := by omega
          subst this; simp
        · have : k = 1 := by omega
          subst this; simp
      · obtain ⟨j, rfl⟩ : ∃ j, k = j + 2 := ⟨k - 2, by omega⟩
        by_cases hj : j < ss.length
        · rw [if_pos (by omega), if_neg (by omega)]; simp
        · rw [if_neg (by omega), if_neg (by omega), if_neg (by omega)]
          simp [show ss[j]? = none from List.getElem?_eq_none (by omega)]
    exact ⟨key .seIterations, key .time⟩

/-- C83 fails for the number of attempts: in every flow the data set `RK_attempts` holds the time of the step. -/
theorem c83_attempts_refuted (n : Nat) (s : Stats) (hn : 1 < n) :
    ∃ g, flowWrites .empty 0 n [s] = (g, none) ∧ read g .rkAttempts 1 = some s.time := by
  obtain ⟨g, e, _, hr⟩ := write_first (n := n) hn s
  have e1 : write .empty s (0 + 1) n = (g, none) := e
  exact ⟨g, by simp only [flowWrites, e1], by rw [hr]; rfl⟩

/-- C83 fails for flows continued from a layer `it ≥ 1` of a file that was written anew (as when the starting layer is
given explicitly): the first step ends the program with an exception, whatever the statistics and the number of
layers. -/
theorem c83_continue_refuted (it n : Nat) (h1 : 1 ≤ it) (s : Stats) (ss : List Stats) :
    (flowWrites .empty it n (s :: ss)).2 = some .exception := by
  have : 0 < it := h1
  simp [flowWrites, write, writeOps, this, run, step, File.empty]

/-- C83 fails for flows resumed after a crash: if the program was killed after the state of layer 1 had been saved and
before the statistics of that layer were complete (`k` of the first 9 elementary operations were executed), then the
resumed flow, which starts from layer 1, ends with an exception when it saves its first step; this is so however often
it is resumed. -/
theorem c83_crash_refuted (s s' : Stats) (n k : Nat) (hn : 2 < n) (hk : k < 9) (ss : List Stats) :
    (flowWrites (run .empty ((writeOps s 1 n).take k)).1 1 n (s' :: ss)).2 = some .exception := by
  have h1 : 1 < n := by omega
  interval_cases k <;>
    simp [flowWrites, write, writeOps, layerOps, run, step, File.empty, h1, hn]

/-- A flow of three steps. -/
example : ∃ g, flowWrites .empty 0 5 [⟨2, 7, 1⟩, ⟨3, 8, 4⟩, ⟨1, 9, 1⟩] = (g, none) ∧
    read g .seIterations 2 = some 3 ∧ read g .time 3 = some 9 ∧ read g .rkAttempts 2 = some 8 ∧
    read g .time 4 = none := by
  obtain ⟨g, h, hr⟩ := c83_partial 5 [⟨2, 7, 1⟩, ⟨3, 8, 4⟩, ⟨1, 9, 1⟩] (by simp)
  refine ⟨g, h, ?_, ?_, ?_, ?_⟩
  · rw [(hr 2).1]; simp
  · rw [(hr 3).2]; simp
  · have : g = (flowWrites .empty 0 5 [⟨2, 7, 1⟩, ⟨3, 8, 4⟩, ⟨1, 9, 1⟩]).1 := by rw [h]
    rw [this]; decide +kernel
  · rw [(hr 4).2]; simp

end Verif.Stats
