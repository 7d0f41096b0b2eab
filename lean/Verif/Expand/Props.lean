import Verif.Expand.Lemmas
import Verif.Vertex.Props
import Mathlib.Data.Rat.Defs
import Mathlib.Algebra.Ring.Rat
import Mathlib.Algebra.Order.Field.Rat
import Mathlib.Tactic.NormNum
import Mathlib.Tactic.Ring
import Mathlib.Tactic.IntervalCases

/-
C133: preparing a vertex for a bubble or a loop does not change what is read from it.
-/
namespace Verif.Expand

open Freqs (Ch Fr)
open Vertex (KC Input Reader Full Conf initBare Basis)

section
variable {G F V : Type} [AddCommGroup V]

/-- C133, bare interaction: exchanging legs leaves its components alone, so copying them suffices. -/
theorem c133_bare (basis : Basis) (n iK i : Nat) (u : V) (bubble : Keldysh.Ch) (left : Bool) (hi : i < n)
    (hK : iK < Vertex.nComp basis) :
    Keldysh.rotate bubble left iK < Vertex.nComp basis ∧
    initBare basis n (fun _ _ => 0) u (Keldysh.rotate bubble left iK) i
      = initBare basis n (fun _ _ => 0) u iK i := by
  have hr : ∀ c l, ∀ k < 16, Keldysh.rotate c l k < 16 ∧
      Vertex.secondIndices (Keldysh.rotate c l k) = Vertex.secondIndices k ∧
      (Keldysh.rotate c l k = 0 ↔ k = 0) ∧ (Keldysh.rotate c l k = 15 ↔ k = 15) := by
    intro c l; cases c <;> cases l <;> decide +kernel
  cases basis
  · obtain ⟨h1, h2, -, -⟩ := hr bubble left iK hK
    refine ⟨h1, ?_⟩
    rw [Vertex.initialize_keldysh n _ u _ i h1 hi, Vertex.initialize_keldysh n _ u _ i hK hi, h2]
  · obtain ⟨h1, -, h3, h4⟩ := hr bubble left iK hK
    refine ⟨h1, ?_⟩
    rw [Vertex.initialize_contour n u _ i hi, Vertex.initialize_contour n u _ i hi]
    simp only [h3, h4]
  · have h0 : iK = 0 := by simpa [Vertex.nComp] using hK
    subst h0
    have h1 : Keldysh.rotate bubble left 0 = 0 := ((hr bubble left 0 (by omega)).2.2.1).2 rfl
    rw [h1]
    exact ⟨by simp [Vertex.nComp], rfl⟩

/-- C133, any way of reading (also with symmetry reduction and with two halves): at every grid point of the prepared
vertex, the value read is the one the stored vertex returns for the rotated Keldysh component and the spin. -/
theorem c133_nodes (maxDiag : Nat) (N : Numerics G F V) (hN : Faithful N) {R : Type} (rd : Reader R F V)
    (own : R → Rv G V) (bubble : Keldysh.Ch) (left : Bool) (bare : Nat → Nat → V) (a p t : R) (spin : Nat)
    (hs : spin < 2) :
    ∃ Γ, (expandImpl maxDiag N rd own bubble left bare (whole bare a p t))[spin]? = some Γ ∧
      ∀ (r : Ch) (k : KC) (pt : Pt) (iK i : Nat), N.inside (Γ.ch r k).grid k pt = true →
        readExpanded N k (Γ.ch r) (Γ.crossing r) ⟨iK, 0, i, N.freq (Γ.ch r k).grid k pt⟩
          = rd k ((whole bare a p t).ch r) ((whole bare a p t).crossing r)
              ⟨Keldysh.rotate bubble left iK, spin, i, N.freq (Γ.ch r k).grid k pt⟩ := by
  have hl : (expandImpl maxDiag N rd own bubble left bare (whole bare a p t))[spin]?
      = some (expandFull N rd own bubble left spin bare (whole bare a p t)) := by
    interval_cases spin <;> rfl
  refine ⟨_, hl, ?_⟩
  intro r k pt iK i hp
  cases r <;> exact read_expandClass N hN rd own bubble left spin _ _ a k iK i pt _ rfl hp _

/-- Everything read from the prepared vertex, for one spin component. -/
theorem read_prepared (N : Numerics G F V) (hN : Faithful N) (bubble : Keldysh.Ch) (left : Bool) (spin : Nat)
    (hs : spin < 2) (bare bare' : Nat → Nat → V) (a p t : Rv G V) (h2 : SameK2 (whole bare a p t))
    (hc : spin = 1 → SameCrossed (whole bare a p t)) (r : Ch) (k : KC) (iK i : Nat) (f : Fr F) :
    readExpanded N k ((expandFull N (readStored N) id bubble left spin bare' (whole bare a p t)).ch r)
        ((expandFull N (readStored N) id bubble left spin bare' (whole bare a p t)).crossing r) ⟨iK, 0, i, f⟩
      = readStored N k ((whole bare a p t).ch r) ((whole bare a p t).crossing r)
          ⟨Keldysh.rotate bubble left iK, spin, i, f⟩ := by
  have h2a : (a .k2b).grid = (a .k2).grid := h2 .a
  have h2p : (p .k2b).grid = (p .k2).grid := h2 .p
  have h2t : (t .k2b).grid = (t .k2).grid := h2 .t
  have hc' : spin = 1 → ∀ k, (a k).grid = (t k).grid := fun h k => hc h k
  cases r
  · refine read_stored N hN bubble left spin a t k iK i f _ _ ?_
    split_ifs with h0
    · cases k <;> simp only [gridClass] <;> exact h2a.symm
    · rw [← hc' (by omega) (gridClass k)]
      cases k <;> simp only [gridClass] <;> exact h2a.symm
  · refine read_stored N hN bubble left spin p p k iK i f _ _ ?_
    rw [ite_self]
    cases k <;> simp only [gridClass] <;> exact h2p.symm
  · refine read_stored N hN bubble left spin t a k iK i f _ _ ?_
    split_ifs with h0
    · cases k <;> simp only [gridClass] <;> exact h2t.symm
    · rw [hc' (by omega) (gridClass k)]
      cases k <;> simp only [gridClass] <;> exact h2t.symm

/-- C133, vertices stored without symmetry reduction: at every frequency, the whole prepared vertex and each of its
parts are those of the stored vertex at the rotated Keldysh component, for both spins. For the second spin the channels
a and t must have been stored on the same grids. -/
theorem c133_parts_partial (cf : Conf F) (N : Numerics G F V) (hN : Faithful N) (s : Kind) (bubble : Keldysh.Ch)
    (left : Bool) (basis : Basis) (n : Nat) (u : V) (a p t : Rv G V) (spin : Nat) (hs : spin < 2) (b : Ch) (iK i : Nat)
    (hK : iK < Vertex.nComp basis) (hi : i < n) (f : Fr F) (q : Part) :
    let bare := initBare basis n (fun _ _ => 0) u
    let Γ := whole bare a p t
    SameK2 Γ → (spin = 1 → SameCrossed Γ) →
    let E := expandImpl cf.maxDiag N (readStored N) id bubble left bare Γ
    let x : Input F := ⟨Keldysh.rotate bubble left iK, spin, i, f⟩
    partOf cf N s E spin b ⟨iK, 0, i, f⟩ q = part cf (readStored N) Γ b (partsIrreducible s) (partsOwn s) x q ∧
    valueOf cf N s E spin b ⟨iK, 0, i, f⟩ = .ok (Vertex.value cf (readStored N) Γ b (valueIrreducible s) x) := by
  intro bare Γ h2 hc E x
  have hl : E[spin]? = some (expandFull N (readStored N) id bubble left spin bare Γ) := by
    interval_cases spin <;> rfl
  have h0 : (expandFull N (readStored N) id bubble left spin bare Γ).irred iK i 0
      = Γ.irred (Keldysh.rotate bubble left iK) i spin := by
    have hb : bare (Keldysh.rotate bubble left iK) i = bare iK i :=
      (c133_bare basis n iK i u bubble left hi hK).2
    simp only [expandFull, Γ, whole, hb]
    interval_cases spin <;> simp
  have hr := fun k r f => read_prepared N hN bubble left spin hs bare bare a p t h2 hc r k iK i f
  constructor
  · simp only [partOf, if_true, hl]
    exact part_congr cf _ _ _ _ b _ _ _ _ _ _ i f q h0 hr
  · simp only [valueOf, if_true, hl]
    rw [value_congr cf _ _ _ _ b _ _ _ _ _ i f h0 hr]

/-- C133, third member: what is read from it is the sum of what is read from the first two, part by part, and it is
undefined where they are. -/
theorem c133_sum_partial (cf : Conf F) (hd : 1 ≤ cf.maxDiag) (N : Numerics G F V) (hN : Faithful N) (s : Kind)
    (bubble : Keldysh.Ch) (left : Bool) {R : Type} (rd : Reader R F V) (own : R → Rv G V) (bare : Nat → Nat → V)
    (a p t : R) (hg : ∀ k, (own a k).grid = (own t k).grid) (b : Ch) (iK i : Nat) (f : Fr F) (q : Part) :
    let E := expandImpl cf.maxDiag N rd own bubble left bare (whole bare a p t)
    ((∃ y₀ y₁, partOf cf N s E 0 b ⟨iK, 0, i, f⟩ q = .ok y₀ ∧ partOf cf N s E 1 b ⟨iK, 0, i, f⟩ q = .ok y₁ ∧
        partOf cf N s E 2 b ⟨iK, 0, i, f⟩ q = .ok (y₀ + y₁)) ∨
      (s = .irreducible ∧ cf.maxDiag = 1 ∧ (q = .leftDiff ∨ q = .rightDiff) ∧
        ∀ spin, spin < 3 → partOf cf N s E spin b ⟨iK, 0, i, f⟩ q = .error .undefined)) ∧
    (∃ y₀ y₁, valueOf cf N s E 0 b ⟨iK, 0, i, f⟩ = .ok y₀ ∧ valueOf cf N s E 1 b ⟨iK, 0, i, f⟩ = .ok y₁ ∧
        valueOf cf N s E 2 b ⟨iK, 0, i, f⟩ = .ok (y₀ + y₁)) := by
  intro E
  set Γ₀ := expandFull N rd own bubble left 0 bare (whole bare a p t) with e0
  set Γ₁ := expandFull N rd own bubble left 1 bare (whole bare a p t) with e1
  have hE : E = [Γ₀, Γ₁, addSpins cf.maxDiag Γ₀ Γ₁] := rfl
  have hi : (addSpins cf.maxDiag Γ₀ Γ₁).irred iK i 0 = Γ₀.irred iK i 0 + Γ₁.irred iK i 0 := by
    simp [addSpins, e0, e1, expandFull]
  have hgr : ∀ r k, (Γ₀.ch r k).grid = (Γ₁.ch r k).grid := by
    intro r k
    cases r <;> simp [e0, e1, expandFull, expandClass, whole, Full.ch, hg]
  have hr : ∀ k r f, Has cf.maxDiag k →
      readExpanded N k ((addSpins cf.maxDiag Γ₀ Γ₁).ch r) ((addSpins cf.maxDiag Γ₀ Γ₁).crossing r) ⟨iK, 0, i, f⟩
        = readExpanded N k (Γ₀.ch r) (Γ₀.crossing r) ⟨iK, 0, i, f⟩
          + readExpanded N k (Γ₁.ch r) (Γ₁.crossing r) ⟨iK, 0, i, f⟩ := by
    intro k r f hk
    have := read_plus N hN (Γ₀.ch r k) (Γ₁.ch r k) (hgr r k) k 0 iK i f
    have e : (addSpins cf.maxDiag Γ₀ Γ₁).ch r k = (Γ₀.ch r k).plus (Γ₁.ch r k) := by
      cases r <;> cases k <;> simp only [Has] at hk <;> simp only [addSpins, Full.ch] <;>
        first | rfl | exact if_pos hk
    unfold readExpanded
    rw [e]
    exact this
  constructor
  · have h := part_add cf (readExpanded N) (addSpins cf.maxDiag Γ₀ Γ₁) Γ₀ Γ₁ b iK 0 i hr hi (partsIrreducible s)
      (partsOwn s) f q hd
    rcases h with ⟨y₀, y₁, h0, h1, h2⟩ | ⟨hs, hm, hq, h0, h1, h2⟩
    · exact .inl ⟨y₀, y₁, h0, h1, h2⟩
    · refine .inr ⟨?_, hm, hq, ?_⟩
      · cases s <;> simp [partsIrreducible] at hs ⊢
        all_goals exact absurd hs (by decide)
      · intro spin hsp
        interval_cases spin
        · exact h0
        · exact h1
        · exact h2
  · refine ⟨_, _, rfl, rfl, ?_⟩
    simp only [valueOf, if_true, hE]
    exact congrArg _ (value_add cf (readExpanded N) (addSpins cf.maxDiag Γ₀ Γ₁) Γ₀ Γ₁ b iK 0 i hr hi _ f)

/-- C133, parts declared vanishing: they are read as zero from all members of the prepared vertex at every frequency,
the bare part included, and all the others are read as before. -/
theorem c133_vanishing (maxDiag : Nat) (N : Numerics G F V) (hN : Faithful N) {R : Type} (rd : Reader R F V)
    (own : R → Rv G V) (bubble : Keldysh.Ch) (left : Bool) (bare : Nat → Nat → V) (z : Vanishing) (Γ : Full R V)
    (spin : Nat) :
    let E := expandImpl maxDiag N rd own bubble left bare Γ
    let E' := prepare maxDiag N rd own bubble left bare z Γ
    (E[spin]? = none ↔ E'[spin]? = none) ∧
    ∀ A B, E[spin]? = some A → E'[spin]? = some B → ∀ (r : Ch) (k : KC) (x : Input F),
      readExpanded N k (B.ch r) (B.crossing r) x
          = (if z.part r k = true then 0 else readExpanded N k (A.ch r) (A.crossing r) x) ∧
        B.irred x.iK x.iIn x.spin = (if z.bare = true then 0 else A.irred x.iK x.iIn x.spin) ∧
        (B.ch r k).grid = (A.ch r k).grid := by
  intro E E'
  have hm : E'[spin]? = (E[spin]?).map (vanish z) := by
    simp [E', E, prepare]
  constructor
  · rw [hm]; cases E[spin]? <;> simp
  · intro A B hA hB r k x
    rw [hm, hA] at hB
    simp only [Option.map_some, Option.some.injEq] at hB
    subst hB
    refine ⟨?_, rfl, ?_⟩
    · have e : (vanish z A).ch r k = if z.part r k = true then zeroBuf (A.ch r k) else A.ch r k := by
        cases r <;> rfl
      unfold readExpanded
      rw [e]
      split_ifs with hz
      · exact interp_zero N hN _ _ _
      · rfl
    · cases r <;> simp only [vanish, Full.ch] <;> split_ifs <;> rfl

/-- C133, exchanging the roles of the channels a and t twice gives back the declared parts; once, it declares the parts
of a for t and conversely. -/
theorem c133_swap (z : Vanishing) :
    z.swap.swap = z ∧ z.swap.bare = z.bare ∧
      ∀ k, z.swap.part .a k = z.part .t k ∧ z.swap.part .t k = z.part .a k ∧ z.swap.part .p k = z.part .p k := by
  refine ⟨?_, rfl, fun k => ⟨rfl, rfl, rfl⟩⟩
  cases z with
  | mk bare part =>
    simp only [Vanishing.swap, Vanishing.mk.injEq, true_and]
    funext r k
    cases r <;> rfl

/-- C133, misuse: any other spin argument or member number stops the program. -/
theorem c133_domain (cf : Conf F) (N : Numerics G F V) (s : Kind) {R : Type} (rd : Reader R F V) (own : R → Rv G V)
    (bubble : Keldysh.Ch) (left : Bool) (bare : Nat → Nat → V) (z : Vanishing) (Γ : Full R V) (b : Ch) (spin : Nat)
    (x : Input F) :
    let E := prepare cf.maxDiag N rd own bubble left bare z Γ
    E.length = 3 ∧ ((∃ v, valueOf cf N s E spin b x = .ok v) ↔ x.spin = 0 ∧ spin < 3) ∧
      (¬ (x.spin = 0 ∧ spin < 3) → valueOf cf N s E spin b x = .error .assertion ∧
        ∀ q, partOf cf N s E spin b x q = .error .assertion) := by
  intro E
  have hl : E.length = 3 := rfl
  refine ⟨hl, ?_, ?_⟩
  · unfold valueOf
    by_cases h0 : x.spin = 0
    · rw [if_pos h0]
      by_cases h3 : spin < 3
      · rw [List.getElem?_eq_getElem (by omega : spin < E.length)]
        simp [h0, h3]
      · rw [List.getElem?_eq_none (by omega : E.length ≤ spin)]
        simp [h3]
    · simp [h0]
  · intro h
    unfold valueOf partOf
    by_cases h0 : x.spin = 0
    · have h3 : ¬ spin < 3 := fun h3 => h ⟨h0, h3⟩
      rw [List.getElem?_eq_none (by omega : E.length ≤ spin)]
      simp [h0]
    · simp [h0]

end

/-! ### Concrete interpolation -/

theorem hat_node (c y₀ y₁ y₂ : ℚ) (hc : 0 < c) (n : Nat) (hn : n < 3) :
    hat c y₀ y₁ y₂ (c * n) = if n = 0 then y₀ else if n = 1 then y₁ else y₂ := by
  have hc' : c ≠ 0 := ne_of_gt hc
  unfold hat
  interval_cases n
  · simp [hc.le]
  · simp [hc.le, hc', not_lt.mpr hc.le]
  · have h1 : ¬ c * ((2 : ℕ) : ℚ) < 0 := by push_cast; nlinarith
    have h2 : ¬ c * ((2 : ℕ) : ℚ) ≤ c := by push_cast; nlinarith
    have h3 : c * ((2 : ℕ) : ℚ) ≤ 2 * c := by push_cast; nlinarith
    rw [if_neg h1, if_neg h2, if_pos h3]
    push_cast
    rw [mul_div_assoc, mul_div_cancel₀ _ hc']
    norm_num

/-- The assumptions on the interpolation are met by linear interpolation. -/
theorem lin_faithful : Faithful lin := by
  refine ⟨?_, ?_, ?_⟩
  · rintro ⟨c, hc⟩ k d ⟨n, n1, n2⟩ h
    simp only [lin, decide_eq_true_eq] at h
    obtain ⟨hn, rfl, rfl⟩ := h
    simp only [lin, hat_node c _ _ _ hc n hn]
    interval_cases n <;> rfl
  · intro c k d d' f h
    simp only [lin]
    rw [h ⟨0, 0, 0⟩ rfl, h ⟨1, 0, 0⟩ rfl, h ⟨2, 0, 0⟩ rfl]
  · intro c k d d' f
    simp only [lin, hat]
    split_ifs <;> ring

/-- C133 fails for the second spin when the channels a and t are stored on different grids (they are copied from the
crossed channel): a peak at a grid point of the channel a is lost. -/
theorem c133_grids_refuted :
    ¬ ∀ (a p t : Rv {c : ℚ // 0 < c} ℚ), SameK2 (whole (fun _ _ => 0) a p t) → ∀ (f : Fr ℚ),
      partOf conf lin .full (expandImpl 1 lin (readStored lin) id .a true (fun _ _ => 0) (whole (fun _ _ => 0) a p t))
          1 .a ⟨0, 0, 0, f⟩ .leftSame
        = part conf (readStored lin) (whole (fun _ _ => 0) a p t) .a false false ⟨0, 1, 0, f⟩ .leftSame := by
  intro h
  have h := h (peak ⟨1, by norm_num⟩ 0 1) (peak ⟨1, by norm_num⟩ 0 0) (peak ⟨2, by norm_num⟩ 0 0)
    (by intro r; cases r <;> rfl) ⟨1, 0, 0⟩
  have h := congrArg Except.toOption h
  revert h
  decide +kernel

/-- C133, mixed vertices: the whole of a prepared vertex with one half differentiated is read without the channel which
is its only content, although its parts contain that channel. -/
theorem c133_half_refuted :
    ¬ ∀ (s : Kind) (a p t : Rv {c : ℚ // 0 < c} ℚ) (f : Fr ℚ) (x y z : ℚ),
      let E := expandImpl 1 lin (readStored lin) id .a true (fun _ _ => 0) (whole (fun _ _ => 0) a p t)
      partOf conf lin s E 0 .a ⟨0, 0, 0, f⟩ .leftSame = .ok x → partOf conf lin s E 0 .a ⟨0, 0, 0, f⟩ .leftDiff = .ok y →
      valueOf conf lin s E 0 .a ⟨0, 0, 0, f⟩ = .ok z → z = x + y := by
  intro h
  have h := h .diffLeft (peak ⟨1, by norm_num⟩ 1 0) (peak ⟨1, by norm_num⟩ 0 0) (peak ⟨1, by norm_num⟩ 0 0) ⟨1, 0, 0⟩
    1 0 0
  have e : ∀ (r : Res ℚ) (v : ℚ), Except.toOption r = some v → r = .ok v := by
    intro r v; cases r <;> simp [Except.toOption]
  have h := h (e _ _ (by decide +kernel)) (e _ _ (by decide +kernel)) (e _ _ (by decide +kernel))
  norm_num at h

/-- C133, full and channel-irreducible vertices: the two parts on either side add up to the whole of the prepared
vertex. -/
theorem c133_split {G F V : Type} [AddCommGroup V] (cf : Conf F) (N : Numerics G F V) (s : Kind)
    (hk : s = .full ∨ (s = .irreducible ∧ 2 ≤ cf.maxDiag)) {R : Type} (rd : Reader R F V) (own : R → Rv G V)
    (bubble : Keldysh.Ch) (left : Bool) (bare : Nat → Nat → V) (z : Vanishing) (Γ : Full R V) (b : Ch) (spin : Nat)
    (hs : spin < 3) (iK i : Nat) (f : Fr F) (h1 : 1 ≤ cf.maxDiag) (h3 : cf.maxDiag ≤ 3) (hst : cf.static = false)
    (htr : cf.tr b b f = f) :
    let E := prepare cf.maxDiag N rd own bubble left bare z Γ
    let x : Input F := ⟨iK, 0, i, f⟩
    ∃ v ls ld rs rd', valueOf cf N s E spin b x = .ok v ∧
      partOf cf N s E spin b x .leftSame = .ok ls ∧ partOf cf N s E spin b x .leftDiff = .ok ld ∧ ls + ld = v ∧
      partOf cf N s E spin b x .rightSame = .ok rs ∧ partOf cf N s E spin b x .rightDiff = .ok rd' ∧ rs + rd' = v := by
  intro E x
  have hl : spin < E.length := hs
  have hE : E[spin]? = some E[spin] := List.getElem?_eq_getElem hl
  simp only [valueOf, partOf, if_true, hE, x, part]
  rcases hk with rfl | ⟨rfl, h2⟩
  · obtain ⟨⟨ls, ld, a1, a2, a3⟩, ⟨rs, rd', b1, b2, b3⟩⟩ :=
      Vertex.c45_partial cf (readExpanded N) E[spin] b ⟨iK, 0, i, f⟩ false h1 h3 hst (by simp) htr
    exact ⟨_, ls, ld, rs, rd', rfl, a1, a2, a3, b1, b2, b3⟩
  · obtain ⟨⟨ls, ld, a1, a2, a3⟩, ⟨rs, rd', b1, b2, b3⟩⟩ :=
      Vertex.c45_partial cf (readExpanded N) E[spin] b ⟨iK, 0, i, f⟩ true h1 h3 hst (fun _ => h2) htr
    exact ⟨_, ls, ld, rs, rd', rfl, a1, a2, a3, b1, b2, b3⟩

/-! ### Non-vacuity -/

example : SameK2 (whole (V := ℚ) (fun _ _ => 0) (peak ⟨1, by norm_num⟩ 1 2) (peak ⟨3, by norm_num⟩ 0 0)
      (peak ⟨1, by norm_num⟩ 5 7)) ∧
    SameCrossed (whole (V := ℚ) (fun _ _ => 0) (peak ⟨1, by norm_num⟩ 1 2) (peak ⟨3, by norm_num⟩ 0 0)
      (peak ⟨1, by norm_num⟩ 5 7)) :=
  ⟨by intro r; cases r <;> rfl, by intro k; rfl⟩

example : Keldysh.rotate .a true 1 = 4 ∧ Keldysh.rotate .t false 1 = 1 := by decide

end Verif.Expand
