import Verif.Postproc.Spec
import Mathlib.Tactic.Ring
import Mathlib.Tactic.Linarith
import Mathlib.Data.List.Basic

namespace Verif.Postproc

theorem visit_ok {nL : Nat} {ls : List Nat} (h : ∀ l ∈ ls, l < nL) : visit nL ls = .ok ls := by
  unfold visit
  rw [if_pos (by simpa using h)]

theorem visit_err {nL : Nat} {ls : List Nat} (l : Nat) (hl : l ∈ ls) (h : nL ≤ l) :
    visit nL ls = .error .exception := by
  unfold visit
  rw [if_neg]
  simp only [List.all_eq_true, decide_eq_true_eq, not_forall]
  exact ⟨l, hl, by omega⟩

/-- The table after assignments whose values are determined by their places. -/
theorem foldl_store (ws : List (Nat × ℝ)) (g : Nat → ℝ) (hg : ∀ w ∈ ws, w.2 = g w.1) :
    ∀ buf : List ℝ, (∀ w ∈ ws, w.1 < buf.length) →
      ∃ out, ws.foldlM store buf = .ok out ∧ out.length = buf.length ∧
        ∀ p, out[p]? = if p ∈ ws.map Prod.fst ∧ p < buf.length then some (g p) else buf[p]? := by
  induction ws with
  | nil => intro buf _; exact ⟨buf, rfl, rfl, fun p => by simp⟩
  | cons w ws ih =>
    intro buf hb
    have hw : w.1 < buf.length := hb w (by simp)
    have hs : store buf w = .ok (buf.set w.1 w.2) := by unfold store; rw [if_pos hw]
    obtain ⟨out, h1, h2, h3⟩ := ih (fun x hx => hg x (by simp [hx])) (buf.set w.1 w.2)
      (fun x hx => by simpa using hb x (by simp [hx]))
    refine ⟨out, ?_, by simpa using h2, ?_⟩
    · rw [List.foldlM_cons, hs]; exact h1
    · intro p
      rw [h3 p, List.length_set]
      by_cases hp : p ∈ ws.map Prod.fst ∧ p < buf.length
      · rw [if_pos hp, if_pos ⟨by rw [List.map_cons]; exact List.mem_cons_of_mem _ hp.1, hp.2⟩]
      · rw [if_neg hp]
        by_cases hpw : p = w.1
        · subst hpw
          rw [if_pos ⟨by simp, hw⟩, List.getElem?_set_self hw, hg w (by simp)]
        · rw [List.getElem?_set_ne (fun h => hpw h.symm), if_neg]
          rintro ⟨hm, hl⟩
          rw [List.map_cons, List.mem_cons] at hm
          exact hp ⟨hm.resolve_left hpw, hl⟩

theorem fill_spec (n : Nat) (ws : List (Nat × ℝ)) (g : Nat → ℝ) (hg : ∀ w ∈ ws, w.2 = g w.1)
    (hb : ∀ w ∈ ws, w.1 < n) :
    ∃ out, fill n ws = .ok out ∧ out.length = n ∧
      ∀ p < n, out[p]? = some (if p ∈ ws.map Prod.fst then g p else 0) := by
  obtain ⟨out, h1, h2, h3⟩ := foldl_store ws g hg (List.replicate n 0) (by simpa using hb)
  refine ⟨out, h1, by simpa using h2, fun p hp => ?_⟩
  rw [h3 p]
  by_cases hm : p ∈ ws.map Prod.fst
  · rw [if_pos ⟨hm, by simpa using hp⟩, if_pos hm]
  · rw [if_neg (fun h => hm h.1), if_neg hm]; simp [hp]

theorem mem_entries {e : Ext} {layers : List Nat} {index : Nat → Nat → Nat → Nat} {val : Nat → Nat → Nat → ℝ}
    {w : Nat × ℝ} : w ∈ entries e layers index val ↔
      ∃ l ∈ layers, ∃ i < e.nIn, ∃ iv < e.nF, w = (index l iv i, val l iv i) := by
  simp only [entries, List.mem_flatMap, List.mem_range, List.mem_map]
  constructor
  · rintro ⟨l, hl, i, hi, iv, hiv, rfl⟩; exact ⟨l, hl, i, hi, iv, hiv, rfl⟩
  · rintro ⟨l, hl, i, hi, iv, hiv, rfl⟩; exact ⟨l, hl, i, hi, iv, hiv, rfl⟩

theorem phiIndex_eq (e : Ext) (l iv i : Nat) : phiIndex e l iv i = (l * e.nF + iv) * e.nIn + i := by
  unfold phiIndex; ring

theorem layout_lt {nL nF nIn l iv i : Nat} (hl : l < nL) (hv : iv < nF) (hi : i < nIn) :
    (l * nF + iv) * nIn + i < nL * nF * nIn := by
  have h1 : l * nF + iv + 1 ≤ nL * nF := by
    have : (l + 1) * nF ≤ nL * nF := Nat.mul_le_mul_right _ hl
    rw [Nat.add_mul] at this; omega
  have h2 : (l * nF + iv + 1) * nIn ≤ nL * nF * nIn := Nat.mul_le_mul_right _ h1
  rw [Nat.add_mul (l * nF + iv)] at h2; omega

theorem layout_inj {nF nIn l iv i l' iv' i' : Nat} (hv : iv < nF) (hi : i < nIn) (hv' : iv' < nF) (hi' : i' < nIn)
    (h : (l * nF + iv) * nIn + i = (l' * nF + iv') * nIn + i') : l = l' ∧ iv = iv' ∧ i = i' := by
  have e1 : i = i' := by
    have := congrArg (· % nIn) h
    simpa [Nat.add_mod, Nat.mod_eq_of_lt hi, Nat.mod_eq_of_lt hi'] using this
  subst e1
  have e2 : l * nF + iv = l' * nF + iv' :=
    Nat.eq_of_mul_eq_mul_right (by omega : 0 < nIn) (by omega)
  have e3 : iv = iv' := by
    have := congrArg (· % nF) e2
    simpa [Nat.add_mod, Nat.mod_eq_of_lt hv, Nat.mod_eq_of_lt hv'] using this
  subst e3
  exact ⟨Nat.eq_of_mul_eq_mul_right (by omega : 0 < nF) (by omega), rfl, rfl⟩

/-- A table written at the places of the layout holds every layer that was written and is zero elsewhere. -/
theorem fill_layout (e : Ext) (layers : List Nat) (hl : ∀ l ∈ layers, l < e.nL)
    (index : Nat → Nat → Nat → Nat) (hidx : ∀ l iv i, iv < e.nF → i < e.nIn → index l iv i = (l * e.nF + iv) * e.nIn + i)
    (val : Nat → Nat → Nat → ℝ) :
    ∃ out, fill (e.nL * e.nF * e.nIn) (entries e layers index val) = .ok out ∧ out.length = e.nL * e.nF * e.nIn ∧
      (∀ l ∈ layers, HoldsLayer e out val l) ∧
      (∀ l < e.nL, l ∉ layers → HoldsLayer e out (fun _ _ _ => 0) l) := by
  classical
  let g : Nat → ℝ := fun p => val (p / e.nIn / e.nF) (p / e.nIn % e.nF) (p % e.nIn)
  have dec : ∀ l iv i, iv < e.nF → i < e.nIn → g ((l * e.nF + iv) * e.nIn + i) = val l iv i := by
    intro l iv i hv hi
    have d1 : ((l * e.nF + iv) * e.nIn + i) / e.nIn = l * e.nF + iv := by
      rw [Nat.mul_comm, Nat.mul_add_div (by omega), Nat.div_eq_of_lt hi]; rfl
    have d2 : (l * e.nF + iv) / e.nF = l := by
      rw [Nat.mul_comm, Nat.mul_add_div (by omega), Nat.div_eq_of_lt hv]; rfl
    have d3 : ((l * e.nF + iv) * e.nIn + i) % e.nIn = i := by
      rw [Nat.mul_comm, Nat.mul_add_mod, Nat.mod_eq_of_lt hi]
    have d4 : (l * e.nF + iv) % e.nF = iv := by
      rw [Nat.mul_comm, Nat.mul_add_mod, Nat.mod_eq_of_lt hv]
    show val _ _ _ = _
    rw [d1, d2, d3, d4]
  obtain ⟨out, h1, h2, h3⟩ := fill_spec (e.nL * e.nF * e.nIn) (entries e layers index val) g
    (by
      intro w hw
      obtain ⟨l, _, i, hi, iv, hv, rfl⟩ := mem_entries.1 hw
      rw [hidx l iv i hv hi, dec l iv i hv hi])
    (by
      intro w hw
      obtain ⟨l, hm, i, hi, iv, hv, rfl⟩ := mem_entries.1 hw
      rw [hidx l iv i hv hi]
      exact layout_lt (hl l hm) hv hi)
  refine ⟨out, h1, h2, ?_, ?_⟩
  · intro l hm iv hv i hi
    rw [h3 _ (layout_lt (hl l hm) hv hi), if_pos, dec l iv i hv hi]
    rw [List.mem_map]
    exact ⟨_, mem_entries.2 ⟨l, hm, i, hi, iv, hv, rfl⟩, hidx l iv i hv hi⟩
  · intro l hlt hm iv hv i hi
    rw [h3 _ (layout_lt hlt hv hi), if_neg]
    rw [List.mem_map]
    rintro ⟨w, hw, hwe⟩
    obtain ⟨l', hm', i', hi', iv', hv', rfl⟩ := mem_entries.1 hw
    rw [hidx l' iv' i' hv' hi'] at hwe
    obtain ⟨rfl, -, -⟩ := layout_inj hv' hi' hv hi hwe
    exact hm hm'

theorem im_real_add (x : ℝ) (s : ℂ) : (((x : ℝ) : ℂ) + 2 * s).im = 2 * s.im := by
  simp [Complex.mul_im]

theorem wardIntegrand_eq (g : WGrid) (Phi : Int → ℝ) (sigma : ℝ → ℂ) (vp : ℝ) :
    wardIntegrand g Phi sigma vp = if |vp| < g.wUpper then 2 * (sigma vp).im else 0 := by
  unfold wardIntegrand
  split
  · exact im_real_add _ _
  · rfl

end Verif.Postproc
