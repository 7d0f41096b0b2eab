import Verif.Postproc.Lemmas
import Mathlib.Data.Real.Basic

/-
C135: the test of the Ward identity.  C136: post-processed susceptibilities.  C137: every saved layer is processed.
-/
namespace Verif.Postproc

/-! ### C135 -/

/-- The reported deviation does not depend on what it is supposed to test: whatever the right-hand side `Phi` of the
Ward identity, the reported number is one (or not a number, if the left-hand side integrates to zero), for every
integrator.  In particular, when the identity holds exactly, the deviation is zero and the reported number is one. -/
theorem c135_deviation_refuted (I : (ℝ → ℝ) → ℝ) (g : WGrid) (Phi : Int → ℝ) (sigma : ℝ → ℂ) :
    (phiIntegrated I g Phi sigma = some 1 ∨ phiIntegrated I g Phi sigma = none) ∧
    (I (fun vp => if |vp| < g.wUpper then 2 * (sigma vp).im else 0) ≠ 0 →
      phiIntegrated I g Phi sigma = some 1 ∧
      (I (fun _ => 0) = 0 → WardIdentity g Phi sigma → wardDeviation I g Phi sigma = some 0)) := by
  have key : ∀ P : Int → ℝ, wardIntegrand g P sigma = fun vp => if |vp| < g.wUpper then 2 * (sigma vp).im else 0 :=
    fun P => funext fun vp => wardIntegrand_eq g P sigma vp
  have e1 : phiIntegrated I g Phi sigma = ratio (I fun vp => if |vp| < g.wUpper then 2 * (sigma vp).im else 0)
      (I fun vp => if |vp| < g.wUpper then 2 * (sigma vp).im else 0) := by
    unfold phiIntegrated
    rw [key, key]
  constructor
  · rw [e1]; unfold ratio
    split
    · exact Or.inr rfl
    · rename_i h; exact Or.inl (by rw [div_self h])
  · intro h
    refine ⟨by rw [e1]; unfold ratio; rw [if_neg h, div_self h], fun h0 hw => ?_⟩
    unfold wardDeviation ratio
    rw [if_neg h]
    have : (fun vp => if |vp| < g.wUpper then g.interp Phi vp + 2 * (sigma vp).im else 0) = fun _ => (0 : ℝ) := by
      funext vp
      split
      · rename_i hv; rw [hw vp hv]; ring
      · rfl
    rw [this, h0, zero_div]

/-- A grid of two points, a self-energy and a right-hand side that fulfil the identity. -/
noncomputable def sampleGrid : WGrid := ⟨1, fun _ => 0, fun i => 2 * i - 1⟩

example : WardIdentity sampleGrid (fun _ => 2) (fun _ => -Complex.I) := by
  intro vp _
  simp only [WGrid.interp, Complex.neg_im, Complex.I_im]
  ring

/-- The table of the right-hand side holds every layer before the last saved one at its place. -/
theorem c135_tables_partial (e : Ext) (last : Int) (h0 : 0 ≤ last) (hs : last < 2 ^ 31) (hL : last < e.nL)
    (v im ph : Nat → Nat → Nat → ℝ) (hn : e.nIn = 1) :
    ∃ vs ims phs, phiTables e last v im ph = .ok (vs, ims, phs) ∧
      ∀ l : Nat, (l : Int) < last → HoldsLayer e vs v l ∧ HoldsLayer e ims im l ∧ HoldsLayer e phs ph l := by
  have hlay : phiLayers last = List.range last.toNat := by
    unfold phiLayers; congr 2; omega
  have hr : ∀ l ∈ phiLayers last, l < e.nL := by
    intro l hl; rw [hlay, List.mem_range] at hl; omega
  have hv : ∀ l iv i, iv < e.nF → i < e.nIn → vIndex e l iv i = (l * e.nF + iv) * e.nIn + i := by
    intro l iv i _ _; unfold vIndex; rw [hn]; ring
  obtain ⟨a, a1, -, a2, -⟩ := fill_layout e (phiLayers last) hr (vIndex e) hv v
  obtain ⟨b, b1, -, b2, -⟩ := fill_layout e (phiLayers last) hr (vIndex e) hv im
  obtain ⟨c, c1, -, c2, -⟩ := fill_layout e (phiLayers last) hr (phiIndex e) (fun l iv i _ _ => phiIndex_eq e l iv i) ph
  refine ⟨a, b, c, ?_, fun l hl => ?_⟩
  · unfold phiTables
    rw [visit_ok hr]
    show (fill _ _ >>= _) = _
    rw [a1]
    show (fill _ _ >>= _) = _
    rw [b1]
    show (fill _ _ >>= _) = _
    rw [c1]; rfl
  · have hm : l ∈ phiLayers last := by rw [hlay, List.mem_range]; omega
    exact ⟨a2 l hm, b2 l hm, c2 l hm⟩

/-- The right-hand side is at its place for any number of internal indices. -/
theorem c135_phi_partial (e : Ext) (layers : List Nat) (hl : ∀ l ∈ layers, l < e.nL) (ph : Nat → Nat → Nat → ℝ) :
    ∃ phs, fill (e.nL * e.nF * e.nIn) (entries e layers (phiIndex e) ph) = .ok phs ∧
      (∀ l ∈ layers, HoldsLayer e phs ph l) ∧ ∀ l < e.nL, l ∉ layers → HoldsLayer e phs (fun _ _ _ => 0) l := by
  obtain ⟨c, c1, -, c2, c3⟩ := fill_layout e layers hl (phiIndex e) (fun l iv i _ _ => phiIndex_eq e l iv i) ph
  exact ⟨c, c1, c2, c3⟩

/-- The last saved layer is missing: its entries are zero, whatever the state there. -/
theorem c135_last_refuted (e : Ext) (last : Int) (h0 : 0 ≤ last) (hs : last < 2 ^ 31) (hL : last < e.nL)
    (v im ph : Nat → Nat → Nat → ℝ) (hn : e.nIn = 1) :
    ∃ vs ims phs, phiTables e last v im ph = .ok (vs, ims, phs) ∧
      HoldsLayer e vs (fun _ _ _ => 0) last.toNat ∧ HoldsLayer e ims (fun _ _ _ => 0) last.toNat ∧
      HoldsLayer e phs (fun _ _ _ => 0) last.toNat := by
  have hlay : phiLayers last = List.range last.toNat := by
    unfold phiLayers; congr 2; omega
  have hr : ∀ l ∈ phiLayers last, l < e.nL := by
    intro l hl; rw [hlay, List.mem_range] at hl; omega
  have hv : ∀ l iv i, iv < e.nF → i < e.nIn → vIndex e l iv i = (l * e.nF + iv) * e.nIn + i := by
    intro l iv i _ _; unfold vIndex; rw [hn]; ring
  obtain ⟨a, a1, -, -, a2⟩ := fill_layout e (phiLayers last) hr (vIndex e) hv v
  obtain ⟨b, b1, -, -, b2⟩ := fill_layout e (phiLayers last) hr (vIndex e) hv im
  obtain ⟨c, c1, -, -, c2⟩ := fill_layout e (phiLayers last) hr (phiIndex e) (fun l iv i _ _ => phiIndex_eq e l iv i) ph
  have hlt : last.toNat < e.nL := by omega
  have hm : last.toNat ∉ phiLayers last := by rw [hlay, List.mem_range]; omega
  refine ⟨a, b, c, ?_, a2 _ hlt hm, b2 _ hlt hm, c2 _ hlt hm⟩
  unfold phiTables
  rw [visit_ok hr]
  show (fill _ _ >>= _) = _
  rw [a1]
  show (fill _ _ >>= _) = _
  rw [b1]
  show (fill _ _ >>= _) = _
  rw [c1]; rfl

/-- With more than one internal index the frequencies and the left-hand side are stored at wrong places: the last entry
of the last processed layer is never written. -/
theorem c135_internal_refuted (e : Ext) (k : Nat) (hk : 2 ≤ k) (hL : k ≤ e.nL) (hF : 1 ≤ e.nF) (hn : 2 ≤ e.nIn)
    (v : Nat → Nat → Nat → ℝ) :
    ∃ vs, fill (e.nL * e.nF * e.nIn) (entries e (List.range k) (vIndex e) v) = .ok vs ∧
      vs[((k - 1) * e.nF + (e.nF - 1)) * e.nIn + (e.nIn - 1)]? = some 0 := by
  have hlt : ((k - 1) * e.nF + (e.nF - 1)) * e.nIn + (e.nIn - 1) < e.nL * e.nF * e.nIn :=
    layout_lt (by omega) (by omega) (by omega)
  have hnot : ∀ w ∈ entries e (List.range k) (vIndex e) v,
      w.1 ≠ ((k - 1) * e.nF + (e.nF - 1)) * e.nIn + (e.nIn - 1) := by
    intro w hw
    obtain ⟨l, hl, i, hi, iv, hv, rfl⟩ := mem_entries.1 hw
    rw [List.mem_range] at hl
    have b1 : l * e.nF ≤ (k - 1) * e.nF := Nat.mul_le_mul_right _ (by omega)
    have b2 : iv * e.nIn ≤ (e.nF - 1) * e.nIn := Nat.mul_le_mul_right _ (by omega)
    have b3 : (k - 1) * e.nF * 2 ≤ (k - 1) * e.nF * e.nIn := Nat.mul_le_mul_left _ hn
    have b4 : 1 * 1 ≤ (k - 1) * e.nF := Nat.mul_le_mul (by omega) hF
    rw [Nat.add_mul]
    show vIndex e l iv i ≠ _
    unfold vIndex
    omega
  have gen : ∀ (ws : List (Nat × ℝ)) (p : Nat), (∀ w ∈ ws, w.1 ≠ p) → ∀ buf out,
      ws.foldlM store buf = .ok out → out[p]? = buf[p]? := by
    intro ws p
    induction ws with
    | nil => intro _ buf out hh; cases hh; rfl
    | cons w ws ih =>
      intro hw buf out hh
      rw [List.foldlM_cons] at hh
      unfold store at hh
      by_cases hb : w.1 < buf.length
      · rw [if_pos hb] at hh
        have := ih (fun x hx => hw x (by simp [hx])) _ _ hh
        rw [this, List.getElem?_set_ne (hw w (by simp))]
      · rw [if_neg hb] at hh; cases hh
  have total : ∀ (ws : List (Nat × ℝ)) (n : Nat), (∀ w ∈ ws, w.1 < n) → ∀ buf : List ℝ, buf.length = n →
      ∃ out, ws.foldlM store buf = .ok out := by
    intro ws n
    induction ws with
    | nil => intro _ buf _; exact ⟨buf, rfl⟩
    | cons w ws ih =>
      intro hw buf hl
      obtain ⟨out, ho⟩ := ih (fun x hx => hw x (by simp [hx])) (buf.set w.1 w.2) (by simp [hl])
      refine ⟨out, ?_⟩
      rw [List.foldlM_cons]
      unfold store
      rw [if_pos (by rw [hl]; exact hw w (by simp))]
      exact ho
  obtain ⟨vs, h⟩ := total (entries e (List.range k) (vIndex e) v) (e.nL * e.nF * e.nIn) (by
    intro w hw
    obtain ⟨l, hl, i, hi, iv, hv, rfl⟩ := mem_entries.1 hw
    rw [List.mem_range] at hl
    refine lt_of_le_of_lt ?_ (layout_lt (l := l) (iv := iv) (i := i) (by omega : l < e.nL) hv hi)
    unfold vIndex
    have : l * e.nF * 1 ≤ l * e.nF * e.nIn := Nat.mul_le_mul_left _ (by omega)
    rw [Nat.add_mul]
    omega) _ (List.length_replicate ..)
  refine ⟨vs, h, ?_⟩
  rw [gen _ _ hnot _ _ h]
  simp [hlt]

/-- Two internal indices, three frequencies, two layers: entry 11 of the table remains zero although the value for it is
five. -/
example : (∃ vs, fill (2 * 3 * 2) (entries ⟨2, 3, 2⟩ (List.range 2) (vIndex ⟨2, 3, 2⟩) fun l iv i => (1 + l + iv + i : ℝ)) = .ok vs ∧
    vs[11]? = some 0) ∧ (fun l iv i : Nat => (1 + l + iv + i : ℝ)) 1 2 1 = 5 :=
  ⟨c135_internal_refuted ⟨2, 3, 2⟩ 2 (by norm_num) (by norm_num) (by norm_num) (by norm_num) _, by norm_num⟩

/-- The tables are written to a file next to the one that was read: the ending `.h5` is replaced. -/
theorem c135_name (stem : List Char) : phiName (stem ++ ['.', 'h', '5']) = .ok (stem ++ "_Phi.h5".toList) := by
  unfold phiName
  rw [if_neg (by simp), if_pos (by simp)]
  simp

/-! ### C137 -/

/-- The susceptibilities are computed for exactly the layers that were saved. -/
theorem c137_susceptibilities (nL : Nat) (last : Int) (h : last < nL) :
    ∃ ls, suscLayers nL last = .ok ls ∧ AllSaved last ls := by
  refine ⟨List.range (last + 1).toNat, visit_ok ?_, List.nodup_range, ?_⟩
  · intro l hl; rw [List.mem_range] at hl; omega
  · intro l; rw [List.mem_range]; omega

/-- The slices are computed for exactly the layers that were saved. -/
theorem c137_slices (nL : Nat) (last : Int) (h0 : 0 < nL) (h : last < nL) :
    ∃ ls, sliceLayers nL last = .ok ls ∧ AllSaved last ls := by
  obtain ⟨ls, h1, h2⟩ := c137_susceptibilities nL last h
  refine ⟨ls, ?_, h2⟩
  unfold sliceLayers
  rw [visit_ok (by simpa using h0)]
  exact h1

/-- A slice holds all sixteen components of a vertex whose component 2222 vanishes. -/
theorem c137_slice_components (value : Nat → ℂ) (h : value 15 = 0) (iK : Nat) (hk : iK < 16) :
    slicePoint value iK = value iK := by
  unfold slicePoint
  split
  · rfl
  · have : iK = 15 := by omega
    rw [this, h]

/-- The sum rule of the susceptibility and the Ward identity: all layers but the last saved one. -/
theorem c137_before_last_partial (nL : Nat) (last : Int) (h0 : 0 ≤ last) (hs : last < 2 ^ 31) (h : last < nL) :
    ∃ ls, sumRuleLayers nL last = .ok ls ∧ visit nL (phiLayers last) = .ok ls ∧ AllSaved (last - 1) ls := by
  have hlay : phiLayers last = List.range last.toNat := by
    unfold phiLayers; congr 2; omega
  have hv : visit nL (List.range last.toNat) = .ok (List.range last.toNat) := visit_ok (by
    intro l hl; rw [List.mem_range] at hl; omega)
  refine ⟨List.range last.toNat, ?_, by rw [hlay, hv], List.nodup_range, ?_⟩
  · unfold sumRuleLayers; rw [if_neg (by omega), hv]
  · intro l; rw [List.mem_range]; omega

/-- The last saved layer is never processed by the sum rule of the susceptibility and by the Ward identity. -/
theorem c137_last_refuted (nL : Nat) (last : Int) (h0 : 0 ≤ last) (hs : last < 2 ^ 31) :
    (∀ ls, sumRuleLayers nL last = .ok ls → ¬ AllSaved last ls) ∧
    (∀ ls, visit nL (phiLayers last) = .ok ls → ¬ AllSaved last ls) := by
  have vis : ∀ ls ls', visit nL ls = .ok ls' → ls' = ls := by
    intro ls ls' hh
    unfold visit at hh
    split at hh
    · cases hh; rfl
    · cases hh
  have no : ¬ AllSaved last (List.range last.toNat) := by
    rintro ⟨-, h⟩
    have := (h last.toNat).2 (by omega)
    rw [List.mem_range] at this; omega
  have hlay : phiLayers last = List.range last.toNat := by
    unfold phiLayers; congr 2; omega
  constructor
  · intro ls hh
    unfold sumRuleLayers at hh
    rw [if_neg (by omega)] at hh
    rw [vis _ _ hh]; exact no
  · intro ls hh
    rw [hlay] at hh
    rw [vis _ _ hh]; exact no

/-- A file in which nothing was saved: the susceptibilities have no layers, the other two functions throw. -/
theorem c137_nothing_saved (nL : Nat) (h : nL < 2 ^ 32 - 1) :
    suscLayers nL (-1) = .ok [] ∧ sumRuleLayers nL (-1) = .error .exception ∧
      visit nL (phiLayers (-1)) = .error .exception := by
  refine ⟨rfl, rfl, ?_⟩
  apply visit_err nL _ (le_refl _)
  unfold phiLayers
  rw [List.mem_range]
  omega

/-- A negative number of the last layer makes the loop of the Ward identity run over billions of layers. -/
theorem c137_wraps (last : Int) (h0 : last < 0) (h1 : -2 ^ 31 ≤ last) : (phiLayers last).length = 2 ^ 32 - (-last).toNat := by
  unfold phiLayers
  rw [List.length_range]
  omega

/-- The component 2222 is not looked at: the slice holds zero there, also if the vertex violates causality. -/
theorem c137_slice_last (value : Nat → ℂ) : slicePoint value 15 = 0 := if_neg (by decide)

/-- The check of the Kramers-Kronig relations visits only layers of the file, all but the last saved one, if the file
has neither fifty nor one hundred layers. -/
theorem c137_kramers_kronig_partial (nL : Nat) (last : Int) (h0 : 0 ≤ last) (h : last < nL) (h50 : nL ≠ 50)
    (h100 : nL ≠ 100) : ∃ ls, kkLayers nL last = .ok ls ∧ AllSaved (last - 1) ls := by
  refine ⟨List.range last.toNat, ?_, List.nodup_range, ?_⟩
  · unfold kkLayers
    rw [if_neg h50, if_neg h100, if_neg (by omega)]
    exact visit_ok (by intro l hl; rw [List.mem_range] at hl; omega)
  · intro l; rw [List.mem_range]; omega

/-- With fifty or one hundred layers it reads layers that the file does not have. -/
theorem c137_kramers_kronig_refuted (last : Int) :
    kkLayers 50 last = .error .exception ∧ kkLayers 100 last = .error .exception := by
  constructor
  · unfold kkLayers
    rw [if_pos rfl]
    exact visit_err 65 (by decide) (by decide)
  · unfold kkLayers
    rw [if_neg (by decide), if_pos rfl]
    exact visit_err 115 (by decide) (by decide)

end Verif.Postproc
