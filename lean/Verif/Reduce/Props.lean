import Verif.Reduce.Lemmas
import Mathlib.Tactic.NormNum

/-! C127: calculating the fundamental sector only and filling in the rest gives the same vertex as calculating
everything. -/
namespace Verif.Reduce
open Verif.Symmetries
open Verif.Freqs (Ch Fr legs)

section
variable {K R : Type} [Field K] [LinearOrder K] [IsStrictOrderedRing K] [CommRing R] [StarRing R] [Algebra K R]
variable {cls : Cls} {cfg : Cfg} {ε : K} {g : Grids K} {c : Ch}

/-- What a single bubble computation leaves in an entry, whether or not the vertex agrees with its mirror
image. -/
theorem bubble_entry (hε : 0 ≤ ε) (hg : GoodGrids g) (val : Key → R) {l : List Event} (hl : Schedule cls g l)
    {k : Key} (hk : k.Valid cls g) :
    ∃ src : Key, src.Valid cls g ∧ AtKey cls g (keyTransf cls cfg ε g c k) src ∧
      moves cls cfg ε g c src = false ∧
      bubble false cls cfg ε g c val l k =
        if vanishing cls cfg c (keyTransf cls cfg ε g c k) then 0
        else if moves cls cfg ε g c k then applyRead cfg (keyTransf cls cfg ε g c k) (val src)
        else val k := by
  obtain ⟨src, h1, h2, h3, h4⟩ := c38_result (cfg := cfg) (c := c) (ε := ε) hε hg
    ⟨calculated false cls cfg ε g c val, fun _ => 0⟩ hl k hk
  refine ⟨src, h1, h3, h2, ?_⟩
  have e : bubble false cls cfg ε g c val l k =
      (exec cls cfg ε g c ⟨calculated false cls cfg ε g c val, fun _ => 0⟩ l).store k := rfl
  dsimp only at h4
  rw [e, h4]
  have hcalc : ∀ k, moves cls cfg ε g c k = false → calculated false cls cfg ε g c val k = val k := by
    intro k hm
    unfold calculated
    rw [if_pos ((trafo_eq_zero k).2 hm)]
  by_cases hm : moves cls cfg ε g c k = true
  · rw [if_pos hm, if_pos hm, hcalc src h2]
  · rw [if_neg hm, if_neg hm, hcalc k (by simpa using hm)]

/-- C127: a vertex with the physical symmetries that agrees with its mirror image is obtained exactly, whether
all entries are calculated or only those of the fundamental sector, and for every schedule of the parallel loop.
Class `K2` does not even have to agree with its mirror image. -/
theorem c127_exact {V : Vertex K R} (hV : Sym cfg V) (hi : Independent V cls c) (hc : Causal V cls c)
    (hmir : cls ≠ .k2 → ∀ s α ν, V.val true c s α ν = V.val false c s α ν)
    (hε : 0 ≤ ε) (hg : GoodGrids g) (dbg : Bool) {l : List Event} (hl : Schedule cls g l)
    {k : Key} (hk : k.Valid cls g) (hm : cfg.keldysh = false → k.iK = 0) :
    bubble dbg cls cfg ε g c (truth V false cls g c) l k = truth V false cls g c k := by
  cases dbg
  · obtain ⟨src, hsv, hat, hsm, e⟩ := bubble_entry (cfg := cfg) (c := c) hε hg (truth V false cls g c) hl hk
    rw [e]
    by_cases hv : vanishing cls cfg c (keyTransf cls cfg ε g c k) = true
    · rw [if_pos hv, truth_vanishing hV hi hc hε hk hm hsv hat hv]
    · rw [if_neg hv]
      by_cases hmv : moves cls cfg ε g c k = true
      · rw [if_pos hmv, truth_source hV hi hε hk hm hat]
        congr 1
        cases ha : (keyTransf cls cfg ε g c k).asym
        · rfl
        · refine (hmir ?_ _ _ _).symm
          rintro rfl
          rw [k2_asym hε k hk.1] at ha; cases ha
      · rw [if_neg hmv]
  · show (if trafo true cls cfg ε g c k = 0 then _ else 0) = _
    rw [if_pos]
    cases cls <;> simp [trafo, trafoK1, trafoK2, trafoK3]

/-- Two mirror-image parts, of the classes `K1` and `K3`: the left part `val false` and the right part
`val true`. -/
theorem truth_mirror (V : Vertex K R) (k : Key) : truth (mirror V) false cls g c k = truth V true cls g c k := rfl

theorem independent_mirror {V : Vertex K R} (hcls : cls ≠ .k2) (hi : Independent V cls c) :
    Independent (mirror V) cls c := by
  cases cls
  · intro h s α w v v' u u'; exact hi _ _ _ _ _ _ _ _
  · exact absurd rfl hcls
  · trivial

theorem causal_mirror {V : Vertex K R} (hc : Causal V cls c) : Causal (mirror V) cls c :=
  fun h s hs iK h16 hv ν => hc (!h) s hs iK h16 hv ν

/-- C127: the sum of a left part and its mirror image, each computed on its own, is the exact sum, although the
parts themselves are filled in with the wrong partner. -/
theorem c127_sum {V : Vertex K R} (hV : Sym cfg V) (hcls : cls ≠ .k2) (hi : Independent V cls c)
    (hc : Causal V cls c) (hε : 0 ≤ ε) (hg : GoodGrids g) {l l' : List Event} (hl : Schedule cls g l)
    (hl' : Schedule cls g l') {k : Key} (hk : k.Valid cls g) (hm : cfg.keldysh = false → k.iK = 0) :
    bubble false cls cfg ε g c (truth V false cls g c) l k + bubble false cls cfg ε g c (truth V true cls g c) l' k =
      truth V false cls g c k + truth V true cls g c k := by
  obtain ⟨src, hsv, hat, hsm, e⟩ := bubble_entry (cfg := cfg) (c := c) hε hg (truth V false cls g c) hl hk
  obtain ⟨src', hsv', hat', hsm', e'⟩ := bubble_entry (cfg := cfg) (c := c) hε hg (truth V true cls g c) hl' hk
  have hs : truth V true cls g c src' = truth V true cls g c src := by
    rw [← interp_atKey hg hsv' hat' (truth V true cls g c), ← interp_atKey hg hsv hat (truth V true cls g c)]
  have hi' := independent_mirror hcls hi
  rw [e, e', hs]
  by_cases hv : vanishing cls cfg c (keyTransf cls cfg ε g c k) = true
  · rw [if_pos hv, if_pos hv, truth_vanishing hV hi hc hε hk hm hsv hat hv, ← truth_mirror,
      truth_vanishing (sym_mirror hV) hi' (causal_mirror hc) hε hk hm hsv hat hv]
  · rw [if_neg hv, if_neg hv]
    by_cases hmv : moves cls cfg ε g c k = true
    · have h1 := truth_source hV hi hε hk hm hat
      have h2 := truth_source (sym_mirror hV) hi' hε hk hm hat
      have h2' : truth V true cls g c k = applyRead cfg (keyTransf cls cfg ε g c k)
          (truth V (!(keyTransf cls cfg ε g c k).asym) cls g c src) := h2
      rw [if_pos hmv, if_pos hmv, h1, h2']
      cases (keyTransf cls cfg ε g c k).asym
      · rfl
      · exact add_comm _ _
    · rw [if_neg hmv, if_neg hmv]

/-- C127: putting the parts in order afterwards makes both of them exact. -/
theorem c127_reorder {V : Vertex K R} (hV : Sym cfg V) (hcls : cls ≠ .k2) (hi : Independent V cls c)
    (hc : Causal V cls c) (hε : 0 ≤ ε) (hg : GoodGrids g) {l l' m m' : List Event} (hl : Schedule cls g l)
    (hl' : Schedule cls g l') (hm : Schedule cls g m) (hm' : Schedule cls g m') {k : Key} (hk : k.Valid cls g)
    (h0 : cfg.keldysh = false → k.iK = 0) :
    let parts := reorder cls cfg ε g c (bubble false cls cfg ε g c (truth V false cls g c) l)
      (bubble false cls cfg ε g c (truth V true cls g c) l') m m'
    parts.1 k = truth V false cls g c k ∧ parts.2 k = truth V true cls g c k := by
  intro parts
  have hi' := independent_mirror hcls hi
  have hc' := causal_mirror hc
  have hV' := sym_mirror hV
  -- entries of the fundamental sector
  have fund : ∀ (W : Vertex K R), Sym cfg W → Independent W cls c → Causal W cls c → ∀ {l : List Event},
      Schedule cls g l → ∀ {k : Key}, k.Valid cls g → (cfg.keldysh = false → k.iK = 0) →
      moves cls cfg ε g c k = false →
      bubble false cls cfg ε g c (truth W false cls g c) l k = truth W false cls g c k := by
    intro W hW hiW hcW l hl k hk h0 hmv
    obtain ⟨src, hsv, hat, hsm, e⟩ := bubble_entry (cfg := cfg) (c := c) hε hg (truth W false cls g c) hl hk
    rw [e]
    by_cases hv : vanishing cls cfg c (keyTransf cls cfg ε g c k) = true
    · rw [if_pos hv, truth_vanishing hW hiW hcW hε hk h0 hsv hat hv]
    · rw [if_neg hv, if_neg (by simp [hmv])]
  -- the Keldysh index of the source
  have src0 : ∀ {k src : Key}, k.Valid cls g → (cfg.keldysh = false → k.iK = 0) →
      AtKey cls g (keyTransf cls cfg ε g c k) src → (cfg.keldysh = false → src.iK = 0) := by
    intro k src hk h0 hat hf
    obtain ⟨i, hT, _⟩ := keyTransf_Ti (cls := cls) (cfg := cfg) (g := g) (c := c) hε k hk.1
    rw [← hat.2.1]
    exact (ok_Ti (x := keyInd cls g c k) ⟨hk.2.2.1, hk.1, h0⟩ hT).2.2 hf
  -- one pass
  have pass : ∀ (W : Vertex K R), Sym cfg W → Independent W cls c → Causal W cls c →
      ∀ (own other : Key → R), (∀ k : Key, k.Valid cls g → (cfg.keldysh = false → k.iK = 0) →
        moves cls cfg ε g c k = false → own k = truth W false cls g c k ∧ other k = truth W true cls g c k) →
      ∀ {l : List Event}, Schedule cls g l → ∀ {k : Key}, k.Valid cls g → (cfg.keldysh = false → k.iK = 0) →
      (execWith cls cfg ε g c other ⟨own, fun _ => 0⟩ l).store k = truth W false cls g c k := by
    intro W hW hiW hcW own other hf l hl k hk h0
    obtain ⟨src, hsv, hsm, hat, e⟩ := execWith_result (cfg := cfg) (c := c) (other := other) hε hg
      ⟨own, fun _ => 0⟩ hl k hk
    rw [e]
    by_cases hv : vanishing cls cfg c (keyTransf cls cfg ε g c k) = true
    · rw [if_pos hv, truth_vanishing hW hiW hcW hε hk h0 hsv hat hv]
    · rw [if_neg hv]
      by_cases hmv : moves cls cfg ε g c k = true
      · rw [if_pos hmv, truth_source hW hiW hε hk h0 hat]
        congr 1
        have := hf src hsv (src0 hk h0 hat) hsm
        cases (keyTransf cls cfg ε g c k).asym
        · exact this.1
        · exact this.2
      · rw [if_neg hmv]
        exact (hf k hk h0 (by simpa using hmv)).1
  have hL : ∀ {k : Key}, k.Valid cls g → (cfg.keldysh = false → k.iK = 0) →
      parts.1 k = truth V false cls g c k := fun {k} hk h0 =>
    pass V hV hi hc _ _ (fun k hk h0 hmv => ⟨fund V hV hi hc hl hk h0 hmv,
      fund (mirror V) hV' hi' hc' hl' hk h0 hmv⟩) hm hk h0
  refine ⟨hL hk h0, ?_⟩
  exact pass (mirror V) hV' hi' hc' _ _ (fun k hk h0 hmv => ⟨fund (mirror V) hV' hi' hc' hl' hk h0 hmv,
    hL hk h0⟩) hm' hk h0

end

end Verif.Reduce
