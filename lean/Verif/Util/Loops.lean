import Verif.Outcome
import Mathlib.Data.List.Basic
import Mathlib.Data.List.Perm.Basic

/-! Loops over the entries of an array, executed in an arbitrary order of the iterations. -/
namespace Verif

/-- One iteration: replace entry `i` by `f i` of its current contents; out of range undefined. -/
def touch (f : Nat → α → Res α) (buf : List α) (i : Nat) : Res (List α) :=
  match buf[i]? with
  | none => .error .undefined
  | some x => do let y ← f i x; .ok (buf.set i y)

/-- Run the iterations in the order given by `order`. -/
def runLoop (f : Nat → α → Res α) (order : List Nat) (buf : List α) : Res (List α) :=
  order.foldlM (touch f) buf

/-- If the iterations succeed with value `g i`, every order that performs each iteration exactly once gives
the same result, entry by entry. -/
theorem runLoop_aux (f : Nat → α → Res α) (g : Nat → α → α) (order : List Nat) (hnd : order.Nodup)
    (buf : List α) (hin : ∀ i ∈ order, i < buf.length)
    (hf : ∀ i (h : i < buf.length), i ∈ order → f i buf[i] = .ok (g i buf[i])) :
    ∃ out, runLoop f order buf = .ok out ∧ out.length = buf.length ∧
      ∀ p (h : p < buf.length), out[p]? = some (if p ∈ order then g p buf[p] else buf[p]) := by
  induction order generalizing buf with
  | nil => exact ⟨buf, rfl, rfl, fun p h => by simp [h]⟩
  | cons i is ih =>
    have hi : i < buf.length := hin i (by simp)
    rw [List.nodup_cons] at hnd
    have hstep : touch f buf i = .ok (buf.set i (g i buf[i])) := by
      simp [touch, hi, hf i hi (by simp), bind, Except.bind]
    have hne : ∀ j ∈ is, j ≠ i := fun j hj h => hnd.1 (h ▸ hj)
    obtain ⟨out, h1, h2, h3⟩ := ih hnd.2 (buf.set i (g i buf[i]))
      (fun j hj => by simpa using hin j (by simp [hj]))
      (fun j hj hm => by
        have hj' : j < buf.length := by simpa using hj
        rw [List.getElem_set_ne (fun h => hne j hm h.symm)]
        exact hf j hj' (by simp [hm]))
    refine ⟨out, ?_, by simpa using h2, ?_⟩
    · unfold runLoop at h1 ⊢
      rw [List.foldlM_cons, hstep]; exact h1
    · intro p hp
      rw [h3 p (by simpa using hp)]
      by_cases hpi : p = i
      · subst hpi
        simp [hnd.1]
      · rw [List.getElem_set_ne (fun h => hpi h.symm)]
        simp [hpi]

theorem runLoop_perm (f : Nat → α → Res α) (g : Nat → α → α) (buf : List α) (order : List Nat)
    (hp : order.Perm (List.range buf.length))
    (hf : ∀ i (h : i < buf.length), f i buf[i] = .ok (g i buf[i])) :
    runLoop f order buf = .ok (buf.mapIdx g) := by
  obtain ⟨out, h1, h2, h3⟩ := runLoop_aux f g order (hp.nodup_iff.2 List.nodup_range) buf
    (fun i hi => by simpa using hp.mem_iff.1 hi) (fun i h _ => hf i h)
  rw [h1]
  congr 1
  apply List.ext_getElem?
  intro p
  by_cases hlt : p < buf.length
  · rw [h3 p hlt, if_pos (hp.mem_iff.2 (by simpa using hlt))]
    simp [hlt]
  · rw [List.getElem?_eq_none (by omega), List.getElem?_eq_none (by simp; omega)]

end Verif
