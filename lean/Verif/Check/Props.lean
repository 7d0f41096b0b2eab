import Verif.Check.Lemmas
import Mathlib.Tactic.NormNum
import Mathlib.Tactic.Linarith
import Mathlib.Algebra.Order.Ring.Rat

/-! C134: the symmetry check reports no deviation for a symmetric vertex; what it detects and what it misses. -/
namespace Verif.Check
open Verif.Symmetries
open Verif.Freqs (Ch Fr legs)

section
variable {K R : Type} [Field K] [LinearOrder K] [IsStrictOrderedRing K] [CommRing R] [StarRing R] [Algebra K R]
variable {cfg : Cfg} {ε : K}

/-- All channels use the grids `g`, which are symmetric, and `K2b` those of `K2`. -/
structure Common (v : Vtx K R) (g : KClass → Grids K) : Prop where
  same : ∀ c k, (v c k).grid = g k
  good : ∀ k, GoodGrids (g k)
  mixed : g .k2b = g .k2

theorem fetch_val {P : Physical K R} (hP : P.Symmetric cfg) {v : Vtx K R} (hst : Stores P v) {c : Ch} {k : KClass}
    (hg : GoodGrids (v c k).grid) {y : Ind K} {m : Key} (hm : Valid k (v c k).grid m) (hat : At k (v c k).grid y m) :
    fetch k (v c k) y = P.val k c y.spin y.iK y.f := by
  rw [fetch_at hg hm hat, hst c k m hm, ← hat.1, ← hat.2.1]
  rcases hf : y.f with ⟨w, v1, v2⟩
  obtain ⟨_, _, h3, h4⟩ := hat
  rw [hf] at h3 h4
  cases k
  · simp only at h3
    rw [freq, h3]; exact hP.ind1 _ _ _ _ _ _ _ _
  · simp only at h3 h4
    rw [freq, h3, h4]; exact hP.ind2 _ _ _ _ _ _ _
  · simp only at h3 h4
    rw [freq, h3, h4]; exact hP.ind2b _ _ _ _ _ _ _
  · simp only at h3 h4
    rw [freq, h3, h4.1, h4.2]

/-- The value of a class at transformed arguments. -/
theorem val_Ti [NeZero (2 : K)] {P : Physical K R} (hP : P.Symmetric cfg) {k : KClass} {x y : Ind K} {i : Nat}
    (hx : x.asym = false ∧ x.prefactor = 1 ∧ x.conj = false) (ok : Ok cfg x)
    (hy : Ti cfg (fun _ => 0) i x = .ok y) {kk : KClass}
    (hk : (k ≠ .k2b ∧ kk = k ∧ (k = .k2 → y.asym = false)) ∨ (k = .k2b ∧ kk = .k2 ∧ y.asym = true)) :
    P.val k x.ch x.spin x.iK x.f = applyRead cfg y (P.val kk y.ch y.spin y.iK y.f) := by
  have h0 : ∀ r : R, applyRead cfg x r = r := by intro r; simp [applyRead, hx.2.1, hx.2.2]
  have main : ∀ V : Vertex K R, Sym cfg V →
      V.val false x.ch x.spin (bits x.iK) (legFun (legs (.ch x.ch) x.f)) =
        applyRead cfg y (V.val y.asym y.ch y.spin (bits y.iK) (legFun (legs (.ch y.ch) y.f))) := by
    intro V hV
    have := c35_value hV ok.1 ok.2.1 ok.2.2 i hy
    rw [h0, hx.1] at this
    exact this
  rcases hk with ⟨hb, rfl, h2⟩ | ⟨rfl, rfl, ha⟩
  · cases kk
    · simp only [Physical.val]
      rw [main _ hP.sym1]
      cases y.asym
      · rfl
      · rw [hP.mir1]
    · simp only [Physical.val]
      rw [main _ hP.sym2, h2 rfl]
    · exact absurd rfl hb
    · simp only [Physical.val]
      rw [main _ hP.sym3]
      cases y.asym
      · rfl
      · rw [hP.mir3]
  · have := main _ (Reduce.sym_mirror hP.sym2)
    simp only [Physical.val]
    rw [ha] at this
    exact this

theorem code_Ti (hε : 0 ≤ ε) (k : KClass) (x : Ind K) (hs : x.spin < 2) (hk : k ≠ .k2b) :
    ∃ j z, freqCode cfg ε x.ch k x.f = some j ∧ Ti cfg (fun _ => 0) j x = .ok z ∧ z.ch = x.ch ∧
      (k = .k2 → z.asym = x.asym) := by
  cases k
  · obtain ⟨i, y, e1, e2, _, e4, _⟩ := c37_K1 cfg ε hε x hs
    exact ⟨i, y, e1, e2, e4, by simp⟩
  · obtain ⟨i, y, e1, e2, _, e4, _, e6, _⟩ := c37_K2 cfg ε hε x hs
    exact ⟨i, y, e1, e2, e4, fun _ => e6⟩
  · exact absurd rfl hk
  · obtain ⟨i, y, e1, e2, _, e4, _⟩ := c37_K3 cfg ε hε x hs
    exact ⟨i, y, e1, e2, e4, by simp⟩

theorem okb {α β : Type} (a : α) (f : α → Res β) : (Except.ok a >>= f) = f a := rfl

/-- The check never fails for the entries of the buffers, and the deviation is the difference to a related entry. -/
theorem deviation_eq (hε : 0 ≤ ε) {v : Vtx K R} {g : KClass → Grids K} (hc : Common v g) (c : Ch) (k : KClass)
    {n : Key} (hn : Valid k (g k) n) (hm : cfg.keldysh = false → n.iK = 0) :
    ∃ i y kk m, Ti cfg (fun _ => 0) i ({ iK := n.iK, spin := n.spin, f := freq k (g k) n, ch := c } : Ind K) = .ok y ∧
      ((k ≠ .k2b ∧ kk = k ∧ (k = .k2 → y.asym = false)) ∨ (k = .k2b ∧ kk = .k2 ∧ y.asym = true)) ∧
      Valid kk (g kk) m ∧ At kk (g kk) y m ∧
      deviation cfg ε v c k n = .ok ((v c k).data n - applyRead cfg y ((v y.ch kk).data m)) := by
  set x : Ind K := { iK := n.iK, spin := n.spin, f := freq k (g k) n, ch := c } with hx
  have hxok : Ok cfg x := ⟨hn.2.2.1, hn.1, hm⟩
  have hgrid := hc.same c k
  have hgood : GoodGrids (v c k).grid := by rw [hgrid]; exact hc.good k
  have hvn : Valid k (v c k).grid n := by rw [hgrid]; exact hn
  have hdirect : readFrom cfg v k c x = .ok ((v c k).data n) := by
    have hat : At k (v c k).grid x n := by rw [hgrid]; exact at_self k (g k) c n
    unfold readFrom
    rw [if_pos rfl, fetch_at hgood hvn hat]
    simp [applyRead, x]
  obtain ⟨i, y, t1, t2, t3, t4, t5, t6⟩ := table_Ti cfg c k x rfl hn.1
  have hyok : Ok cfg y := Reduce.ok_Ti hxok t2
  have hkk : (k ≠ .k2b ∧ partnerClass k = k ∧ (k = .k2 → y.asym = false)) ∨
      (k = .k2b ∧ partnerClass k = .k2 ∧ y.asym = true) := by
    cases k
    · exact .inl ⟨by simp, rfl, by simp⟩
    · exact .inl ⟨by simp, rfl, fun h => t4 h⟩
    · exact .inr ⟨rfl, rfl, (t5 rfl).1⟩
    · exact .inl ⟨by simp, rfl, by simp⟩
  have hgg : g (partnerClass k) = g k := by
    cases k
    · rfl
    · rfl
    · exact hc.mixed.symm
    · rfl
  obtain ⟨m, mv, ma⟩ := moved_at (kk := partnerClass k) (hc.good k) hn (moved_Ti t2) hyok.2.1 hyok.1 hkk
  have hrel : readFrom cfg v (partnerClass k) (reducedChannel c y) y =
      .ok (applyRead cfg y ((v y.ch (partnerClass k)).data m)) := by
    unfold readFrom
    rw [if_pos t3, ← t3]
    have hgr : (v y.ch (partnerClass k)).grid = g k := by rw [hc.same, hgg]
    rw [fetch_at (by rw [hgr]; exact hc.good k) (by rw [hgr]; exact mv) (by rw [hgr]; exact ma)]
  have hfreq : freq k (v c k).grid n = freq k (g k) n := by rw [hgrid]
  have e0 : deviation cfg ε v c k n =
      (if i = 0 then
        match freqCode cfg ε c k x.f with
        | none => .ok ((v c k).data n - applyRead cfg y ((v y.ch (partnerClass k)).data m))
        | some j =>
          if k = .k1 ∧ j = 0 then .ok ((v c k).data n - applyRead cfg y ((v y.ch (partnerClass k)).data m))
          else do
            let z ← Ti cfg (fun _ => 0) j x
            let other ← readFrom cfg v k c z
            .ok ((v c k).data n - other)
      else .ok ((v c k).data n - applyRead cfg y ((v y.ch (partnerClass k)).data m))) := by
    unfold deviation
    rw [hfreq]
    change (readFrom cfg v k c x >>= _) = _
    rw [hdirect, okb]
    have t1' : table cfg c k n.spin = some i := t1
    rw [t1']
    change (Ti cfg (fun _ => 0) i x >>= _) = _
    rw [t2, okb, hrel, okb]
    rfl
  have first : deviation cfg ε v c k n = .ok ((v c k).data n - applyRead cfg y ((v y.ch (partnerClass k)).data m)) →
      ∃ i y kk m, Ti cfg (fun _ => 0) i x = .ok y ∧
      ((k ≠ .k2b ∧ kk = k ∧ (k = .k2 → y.asym = false)) ∨ (k = .k2b ∧ kk = .k2 ∧ y.asym = true)) ∧
      Valid kk (g kk) m ∧ At kk (g kk) y m ∧
      deviation cfg ε v c k n = .ok ((v c k).data n - applyRead cfg y ((v y.ch kk).data m)) := fun h =>
    ⟨i, y, partnerClass k, m, t2, hkk, by rw [hgg]; exact mv, by rw [hgg]; exact ma, h⟩
  by_cases hi : i = 0
  · have hkb := t6 hi
    obtain ⟨j, z, z1, z2, z3, z4⟩ := code_Ti (cfg := cfg) hε k x hn.1 hkb
    have z1' : freqCode cfg ε c k x.f = some j := z1
    rw [if_pos hi, z1'] at e0
    dsimp only at e0
    by_cases hj : k = .k1 ∧ j = 0
    · rw [if_pos hj] at e0
      exact first e0
    · rw [if_neg hj, z2, okb] at e0
      have hzok : Ok cfg z := Reduce.ok_Ti hxok z2
      have hkk' : (k ≠ .k2b ∧ k = k ∧ (k = .k2 → z.asym = false)) ∨
          (k = .k2b ∧ k = .k2 ∧ z.asym = true) := .inl ⟨hkb, rfl, fun h => z4 h⟩
      obtain ⟨m', mv', ma'⟩ := moved_at (kk := k) (hc.good k) hn (moved_Ti z2) hzok.2.1 hzok.1 hkk'
      have hz : readFrom cfg v k c z = .ok (applyRead cfg z ((v z.ch k).data m')) := by
        have z3' : z.ch = c := z3
        unfold readFrom
        rw [if_pos z3', z3', fetch_at hgood (by rw [hgrid]; exact mv') (by rw [hgrid]; exact ma')]
      rw [hz, okb] at e0
      exact ⟨j, z, k, m', z2, hkk', mv', ma', e0⟩
  · rw [if_neg hi] at e0
    exact first e0

/-- C134: for a vertex with the physical symmetries, stored on symmetric grids that are the same for all channels,
every deviation is zero. -/
theorem c134_zero [NeZero (2 : K)] (hε : 0 ≤ ε) {P : Physical K R} (hP : P.Symmetric cfg) {v : Vtx K R}
    (hst : Stores P v) {g : KClass → Grids K} (hc : Common v g) (c : Ch) (k : KClass) {n : Key}
    (hn : Valid k (g k) n) (hm : cfg.keldysh = false → n.iK = 0) :
    deviation cfg ε v c k n = .ok 0 := by
  obtain ⟨i, y, kk, m, h1, h2, h3, h4, h5⟩ := deviation_eq (cfg := cfg) hε hc c k hn hm
  rw [h5]
  congr 1
  rw [sub_eq_zero]
  have hgk : (v c k).grid = g k := hc.same c k
  rw [hst c k n (by rw [hgk]; exact hn), hgk]
  have hxok : Ok cfg ({ iK := n.iK, spin := n.spin, f := freq k (g k) n, ch := c } : Ind K) := ⟨hn.2.2.1, hn.1, hm⟩
  have := val_Ti hP (k := k) (kk := kk) ⟨rfl, rfl, rfl⟩ hxok h1 h2
  simp only at this
  rw [this]
  have hgy : (v y.ch kk).grid = g kk := hc.same y.ch kk
  rw [← fetch_val hP hst (c := y.ch) (k := kk) (by rw [hgy]; exact hc.good kk) (y := y) (m := m) (by rw [hgy]; exact h3)
    (by rw [hgy]; exact h4), fetch_at (by rw [hgy]; exact hc.good kk) (by rw [hgy]; exact h3) (by rw [hgy]; exact h4)]

/-! ### What is detected -/

/-- A component that is compared with the symmetry-reduced one. -/
theorem deviation_table {v : Vtx K R} {g : KClass → Grids K} (hc : Common v g) {c : Ch} {k : KClass}
    {n : Key} (hn : Valid k (g k) n) {i : Nat} {y : Ind K} (hi : i ≠ 0) (ht : table cfg c k n.spin = some i)
    (hT : Ti cfg (fun _ => 0) i ({ iK := n.iK, spin := n.spin, f := freq k (g k) n, ch := c } : Ind K) = .ok y)
    (hy : y.ch = reducedChannel c y) {m : Key} (mv : Valid (partnerClass k) (g k) m)
    (ma : At (partnerClass k) (g k) y m) :
    deviation cfg ε v c k n = .ok ((v c k).data n - applyRead cfg y ((v y.ch (partnerClass k)).data m)) := by
  have hgrid := hc.same c k
  have hgg : g (partnerClass k) = g k := by
    cases k
    · rfl
    · rfl
    · exact hc.mixed.symm
    · rfl
  have hdirect : readFrom cfg v k c ({ iK := n.iK, spin := n.spin, f := freq k (v c k).grid n, ch := c } : Ind K) =
      .ok ((v c k).data n) := by
    unfold readFrom
    rw [if_pos rfl, fetch_at (by rw [hgrid]; exact hc.good k) (by rw [hgrid]; exact hn) (at_self k _ c n)]
    simp [applyRead]
  have hrel : readFrom cfg v (partnerClass k) (reducedChannel c y) y =
      .ok (applyRead cfg y ((v y.ch (partnerClass k)).data m)) := by
    unfold readFrom
    rw [if_pos hy, ← hy]
    have hgr : (v y.ch (partnerClass k)).grid = g k := by rw [hc.same, hgg]
    rw [fetch_at (by rw [hgr]; exact hc.good k) (by rw [hgr]; exact mv) (by rw [hgr]; exact ma)]
  unfold deviation
  change (readFrom cfg v k c _ >>= _) = _
  rw [hdirect, okb, ht]
  change (Ti cfg (fun _ => 0) i _ >>= _) = _
  rw [hgrid, hT, okb, hrel, okb, if_neg hi]

theorem permK_out : ∀ iK < 16, Keldysh.alphasToIK (swapAt (Keldysh.iKToAlphas iK) 0 1) = permK swapOut iK := by
  decide +kernel

theorem permK_in : ∀ iK < 16, Keldysh.alphasToIK (swapAt (Keldysh.iKToAlphas iK) 2 3) = permK swapIn iK := by
  decide +kernel

theorem permK_both : ∀ iK < 16, Keldysh.alphasToIK (swapAt (Keldysh.iKToAlphas
    (Keldysh.alphasToIK (swapAt (Keldysh.iKToAlphas iK) 2 3))) 0 1) = permK (swapIn * swapOut) iK := by
  decide +kernel

theorem permK_lt (π : Equiv.Perm (Fin 4)) (iK : Nat) : permK π iK < 16 := by
  unfold permK ofBits
  generalize (bits iK ∘ π) = b
  have h : ∀ x : Bool, x.toNat ≤ 1 := by decide
  have := h (b 0); have := h (b 1); have := h (b 2); have := h (b 3)
  omega

/-- C134: in the channels `a` and `t`, an entry of the second spin component is compared with the entry of the other
channel that crossing symmetry (exchange of the outgoing legs) relates it to: same frequencies, opposite sign. -/
theorem c134_crossing {ph : Bool} {v : Vtx K R} {g : KClass → Grids K} (hc : Common v g) {c : Ch} (hca : c ≠ .p)
    {k : KClass} (hk : k ≠ .k2b) {n : Key} (hn : Valid k (g k) n) (hs : n.spin = 1) :
    deviation ⟨true, ph, false⟩ ε v c k n =
      .ok ((v c k).data n + (v (crossed c) k).data { n with spin := 0, iK := permK swapOut n.iK }) := by
  have hp : partnerClass k = k := by cases k <;> first | rfl | exact absurd rfl hk
  have h := deviation_table (cfg := ⟨true, ph, false⟩) (ε := ε) hc hn (i := 2) (c := c)
    (y := T2 ⟨true, ph, false⟩ (fun _ => 0) { iK := n.iK, spin := n.spin, f := freq k (g k) n, ch := c })
    (m := { n with spin := 0, iK := permK swapOut n.iK }) (by omega)
    (by rw [hs]; cases c <;> cases k <;> first | rfl | exact absurd rfl hca | exact absurd rfl hk) rfl
    (by cases c <;> simp [T2, reducedChannel, switchChannel])
    (by rw [hp]; exact ⟨by simp, hn.2.1, permK_lt _ _, by have := hn.2.2.2; cases k <;> exact this⟩)
    (by
      rw [hp]
      refine ⟨by simp [T2, hs], by simp [T2, permK_out _ hn.2.2.1], ?_, ?_⟩
      · cases c <;> cases k <;> simp_all [T2, freq]
      · cases c <;> cases k <;> simp_all [T2, freq])
  rw [h, hp]
  congr 1
  have e : (T2 ⟨true, ph, false⟩ (fun _ => 0)
      ({ iK := n.iK, spin := n.spin, f := freq k (g k) n, ch := c } : Ind K)).ch = crossed c := by
    cases c <;> rfl
  rw [e]
  simp [applyRead, T2]

/-- C134: in the channel `p` the exchange of the incoming legs is used. -/
theorem c134_crossing_p {ph : Bool} {v : Vtx K R} {g : KClass → Grids K} (hc : Common v g)
    {k : KClass} (hk : k ≠ .k2b) {n : Key} (hn : Valid k (g k) n) (hs : n.spin = 1) :
    deviation ⟨true, ph, false⟩ ε v .p k n =
      .ok ((v .p k).data n + (v .p k).data { n with
        spin := 0
        ivp := if k = .k3 then rev (g k).nv n.ivp else n.ivp
        iK := permK swapIn n.iK }) := by
  have hp : partnerClass k = k := by cases k <;> first | rfl | exact absurd rfl hk
  have h := deviation_table (cfg := ⟨true, ph, false⟩) (ε := ε) hc hn (i := 1) (c := .p)
    (y := T1 ⟨true, ph, false⟩ (fun _ => 0) { iK := n.iK, spin := n.spin, f := freq k (g k) n, ch := .p })
    (m := { n with spin := 0, ivp := if k = .k3 then rev (g k).nv n.ivp else n.ivp, iK := permK swapIn n.iK }) (by omega)
    (by rw [hs]; cases k <;> first | rfl | exact absurd rfl hk) rfl
    (by simp [T1, reducedChannel, switchChannel])
    (by
      rw [hp]
      refine ⟨by simp, hn.2.1, permK_lt _ _, ?_⟩
      have := hn.2.2.2
      cases k
      · exact this
      · exact this
      · exact absurd rfl hk
      · refine ⟨this.1, ?_⟩
        have h2 := this.2
        simp only [rev, if_true]; omega)
    (by
      rw [hp]
      refine ⟨by simp [T1, hs], by simp [T1, permK_in _ hn.2.2.1], ?_, ?_⟩
      · cases k <;> simp [T1, freq]
      · have := hn.2.2.2
        cases k
        · trivial
        · simp [T1, freq]
        · exact absurd rfl hk
        · have h2 := (hc.good .k3).symV _ this.2
          simp [T1, freq, rev, h2])
  rw [h, hp]
  congr 1
  have e : (T1 ⟨true, ph, false⟩ (fun _ => 0)
      ({ iK := n.iK, spin := n.spin, f := freq k (g k) n, ch := .p } : Ind K)).ch = .p := rfl
  rw [e]
  simp [applyRead, T1]

/-- C134: in the channels `a` and `t`, an entry of `K2b` is compared with the entry of `K2` obtained by exchanging
both pairs of legs. -/
theorem c134_mixed {ph : Bool} {v : Vtx K R} {g : KClass → Grids K} (hc : Common v g) {c : Ch} (hca : c ≠ .p)
    {n : Key} (hn : Valid .k2b (g .k2b) n) (hs : n.spin = 0) :
    deviation ⟨true, ph, false⟩ ε v c .k2b n =
      .ok ((v c .k2b).data n - (v c .k2).data
        ⟨0, rev (g .k2b).nw n.iw, n.ivp, 0, permK (swapIn * swapOut) n.iK⟩) := by
  have hw := (hc.good .k2b).symW _ hn.2.1
  have h := deviation_table (cfg := ⟨true, ph, false⟩) (ε := ε) hc hn (i := 3) (c := c)
    (y := T3 ⟨true, ph, false⟩ (fun _ => 0) { iK := n.iK, spin := n.spin, f := freq .k2b (g .k2b) n, ch := c })
    (m := ⟨0, rev (g .k2b).nw n.iw, n.ivp, 0, permK (swapIn * swapOut) n.iK⟩) (by omega)
    (by rw [hs]; cases c <;> first | rfl | exact absurd rfl hca) rfl
    (by cases c <;> simp [T3, T2, T1, reducedChannel, switchChannel])
    (by
      have h2 := hn.2.1
      exact ⟨by simp, by simp only [rev]; omega, permK_lt _ _, hn.2.2.2.2, rfl⟩)
    (by
      have h3 := permK_both _ hn.2.2.1
      refine ⟨?_, ?_, ?_, ?_⟩
      · simp [T3, T2, T1, hs]
      · simpa [T3, T2, T1] using h3
      · cases c <;> simp_all [T3, T2, T1, freq, rev, switchChannel]
      · cases c <;> simp_all [T3, T2, T1, freq, switchChannel, partnerClass])
  rw [h]
  congr 1
  have e : (T3 ⟨true, ph, false⟩ (fun _ => 0)
      ({ iK := n.iK, spin := n.spin, f := freq .k2b (g .k2b) n, ch := c } : Ind K)).ch = c := by
    cases c <;> rfl
  rw [e]
  simp [applyRead, T3, T2, T1, partnerClass]

theorem table_zero (cfg : Cfg) (c : Ch) (cls : Cls) : table cfg c cls.kclass 0 = some 0 := by
  rcases cfg with ⟨kd, ph, la⟩
  cases kd <;> cases c <;> cases cls <;> rfl

theorem freqCode_cls (cfg : Cfg) (ε : K) (c : Ch) (cls : Cls) (f : Fr K) :
    freqCode cfg ε c cls.kclass f = select cls cfg ε c f := by cases cls <;> rfl

theorem fetch_cls (cls : Cls) (b : Buf K R) (y : Ind K) : fetch cls.kclass b y = interp cls b.grid b.data y := by
  cases cls <;> rfl

theorem freq_cls (cls : Cls) (g : Grids K) (n : Key) : freq cls.kclass g n = keyFreq cls g n := by cases cls <;> rfl

theorem valid_cls (cls : Cls) (g : Grids K) (n : Key) : Valid cls.kclass g n ↔ n.Valid cls g := by
  cases cls <;> exact Iff.rfl

/-- C134: for the first spin component, the deviation is the difference to what `enforce_freqsymmetries` would write
into the entry, unless that is zero because of causality. -/
theorem c134_sector (hε : 0 ≤ ε) {v : Vtx K R} {g : KClass → Grids K} (hc : Common v g) (c : Ch) (cls : Cls) {n : Key}
    (hn : n.Valid cls (g cls.kclass)) (hs : n.spin = 0)
    (hv : vanishing cls cfg c (keyTransf cls cfg ε (g cls.kclass) c n) = false) (r : Key → R)
    {l : List Event} (hl : Schedule cls (g cls.kclass) l) :
    deviation cfg ε v c cls.kclass n = .ok ((v c cls.kclass).data n -
      (exec cls cfg ε (g cls.kclass) c ⟨(v c cls.kclass).data, r⟩ l).store n) := by
  obtain ⟨src, h1, h2, h3, h4⟩ := c38_result (cfg := cfg) (c := c) (ε := ε) hε (hc.good cls.kclass)
    ⟨(v c cls.kclass).data, r⟩ hl n hn
  rw [h4, if_neg (by simp [hv])]
  have hgrid := hc.same c cls.kclass
  have hn' : Valid cls.kclass (g cls.kclass) n := (valid_cls _ _ _).2 hn
  set x : Ind K := keyInd cls (g cls.kclass) c n with hx
  have hxe : x = { iK := n.iK, spin := n.spin, f := freq cls.kclass (v c cls.kclass).grid n, ch := c } := by
    rw [hgrid, freq_cls]; rfl
  have hdirect : readFrom cfg v cls.kclass c x = .ok ((v c cls.kclass).data n) := by
    rw [hxe]
    unfold readFrom
    rw [if_pos rfl, fetch_at (by rw [hgrid]; exact hc.good _) (by rw [hgrid]; exact hn') (at_self _ _ c n)]
    simp [applyRead]
  have hpc : partnerClass cls.kclass = cls.kclass := by cases cls <;> rfl
  have hrc : reducedChannel c x = c := by simp [reducedChannel, hx, keyInd]
  have hone : ∀ (z : Ind K) (src : Key), z.ch = c → AtKey cls (g cls.kclass) z src → src.Valid cls (g cls.kclass) →
      readFrom cfg v cls.kclass c z = .ok (applyRead cfg z ((v c cls.kclass).data src)) := by
    intro z src hz hat hsv
    unfold readFrom
    rw [if_pos hz, fetch_cls, hgrid, interp_atKey (hc.good _) hsv hat]
  have e0 : deviation cfg ε v c cls.kclass n =
      (match select cls cfg ε c x.f with
        | none => .ok ((v c cls.kclass).data n - (v c cls.kclass).data n)
        | some j =>
          if cls.kclass = .k1 ∧ j = 0 then .ok ((v c cls.kclass).data n - (v c cls.kclass).data n)
          else do
            let z ← Ti cfg (fun _ => 0) j x
            let other ← readFrom cfg v cls.kclass c z
            .ok ((v c cls.kclass).data n - other)) := by
    unfold deviation
    rw [← hxe]
    change (readFrom cfg v cls.kclass c x >>= _) = _
    rw [hdirect, okb, hs, table_zero]
    change (Except.ok x >>= _) = _
    rw [okb, hpc, hrc, hdirect, okb, if_pos rfl, freqCode_cls]
    rfl
  rw [e0]
  obtain ⟨i, hT, hch⟩ := Reduce.keyTransf_Ti (cls := cls) (cfg := cfg) (g := g cls.kclass) (c := c) hε n hn.1
  by_cases hm : moves cls cfg ε (g cls.kclass) c n = true
  · rw [if_pos hm]
    have hm' : select cls cfg ε c x.f ≠ some 0 := by
      have : select cls cfg ε c (keyFreq cls (g cls.kclass) n) ≠ some 0 := by simpa [moves] using hm
      exact this
    cases hsel : select cls cfg ε c x.f with
    | none =>
      exfalso
      have : (keyTransf cls cfg ε (g cls.kclass) c n) = x := by
        simp only [keyTransf]; rw [hsel]
      have hc37 : ∃ j, select cls cfg ε c x.f = some j := by
        cases cls
        · obtain ⟨i, y, e1, _⟩ := c37_K1 cfg ε hε x hn.1; exact ⟨i, e1⟩
        · obtain ⟨i, y, e1, _⟩ := c37_K2 cfg ε hε x hn.1; exact ⟨i, e1⟩
        · obtain ⟨i, y, e1, _⟩ := c37_K3 cfg ε hε x hn.1; exact ⟨i, e1⟩
      obtain ⟨j, hj⟩ := hc37
      rw [hj] at hsel; cases hsel
    | some j =>
      dsimp only
      have hj0 : j ≠ 0 := by rintro rfl; exact hm' hsel
      rw [if_neg (fun h => hj0 h.2)]
      have hTj : Ti cfg (fun _ => 0) j x = .ok (keyTransf cls cfg ε (g cls.kclass) c n) := by
        have hc37 : ∃ j y, select cls cfg ε c x.f = some j ∧ Ti cfg (fun _ => 0) j x = .ok y := by
          cases cls
          · obtain ⟨i, y, e1, e2, _⟩ := c37_K1 cfg ε hε x hn.1; exact ⟨i, y, e1, e2⟩
          · obtain ⟨i, y, e1, e2, _⟩ := c37_K2 cfg ε hε x hn.1; exact ⟨i, y, e1, e2⟩
          · obtain ⟨i, y, e1, e2, _⟩ := c37_K3 cfg ε hε x hn.1; exact ⟨i, y, e1, e2⟩
        obtain ⟨j', y, q1, q2⟩ := hc37
        rw [hsel] at q1; cases q1
        rw [q2]
        simp only [keyTransf]
        rw [hsel]; dsimp only; rw [q2]
      rw [hTj, okb, hone _ src hch h3 h1, okb]
  · have hm' : select cls cfg ε c x.f = some 0 := by
      have : select cls cfg ε c (keyFreq cls (g cls.kclass) n) = some 0 := by simpa [moves] using hm
      exact this
    rw [if_neg hm, hm']
    dsimp only
    by_cases hk1 : cls.kclass = .k1 ∧ 0 = 0
    · rw [if_pos hk1]
    · rw [if_neg hk1]
      change (Except.ok x >>= _) = _
      rw [okb, hdirect, okb]

end

end Verif.Check
