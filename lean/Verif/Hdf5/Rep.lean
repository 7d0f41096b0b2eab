import Verif.Hdf5.Lemmas

/-
A file that represents a table of layers, and preservation of this relation by the calls.
-/
namespace Verif.Hdf5

variable {V : Type} {fill : V} {B : Build}

/-- The file `f` stores the table `t`. -/
structure Rep (B : Build) (f : File V) (t : Table V) : Prop where
  range : 1 ≤ t.n ∧ t.n < 2 ^ 31
  data : ∀ p ∈ allPaths, ∃ d, f.ds p = some d ∧ d.layers = t.n.toNat ∧
    d.width = (t.created.content p).length ∧
    ∀ j s, t.layer j = some s → d.row j.toNat = s.content p
  one : (t.created.content .lambdas).length = 1
  inside : ∀ j s, t.layer j = some s → 0 ≤ j ∧ j < t.n
  groups : ∀ g, f.grp g = true
  last : f.attr .lastLambdaIt = some (.int t.last)
  lastLayer : (t.layer t.last).isSome = true
  conv : f.attr .isConverged = some (.bool t.anyConv)
  params : ∀ a v, (a, v) ∈ paramAttrs B t.created t.anyConv → f.attr a = some v

theorem Rep.attrs {f : File V} {t : Table V} (h : Rep B f t) (a : AttrName) : (f.attr a).isSome = true := by
  cases a with
  | lastLambdaIt => rw [h.last]; rfl
  | isConverged => rw [h.conv]; rfl
  | _ => rw [h.params _ _ (by simp [paramAttrs]; rfl)]; rfl

theorem Rep.read {f : File V} {t : Table V} (h : Rep B f t) {j : Int} {s : Snapshot V}
    (hj : t.layer j = some s) : readState f j = .ok s.stored := by
  obtain ⟨h0, h1⟩ := h.inside j s hj
  have hr := h.range
  have hrow : ∀ p ∈ allPaths, readRow f p j = .ok (s.content p) := by
    intro p hp
    obtain ⟨d, hd, hl, _, hrows⟩ := h.data p hp
    have hu : u64 j = j.toNat := u64_of_nonneg h0 (by omega)
    simp only [readRow, hd, hu]
    rw [if_pos (by omega), hrows j s hj]
  have hm : readMain.mapM (fun p => do let r ← readRow f p j; pure (p, r)) =
      (.ok (readMain.map (fun p => (p, s.content p))) : Res _) := by
    apply mapM_ok
    intro p hp
    rw [hrow p (read_subset (List.mem_append_left _ hp))]; rfl
  have hp : paramPaths.mapM (fun p => do let r ← readRow f p j; pure (p, r)) =
      (.ok (paramPaths.map (fun p => (p, s.content p))) : Res _) := by
    apply mapM_ok
    intro p hp
    rw [hrow p (read_subset (List.mem_append_right _ hp))]; rfl
  have hg : gridNames.mapM (fun g => needGroup f (.grid g)) = (.ok (gridNames.map (fun _ => ())) : Res _) := by
    apply mapM_ok
    intro g _
    simp [needGroup, h.groups]
  have ha : [AttrName.REG, .maxDiagClass, .mu, .V, .GRID].mapM (readAttr f) =
      (.ok ([AttrName.REG, .maxDiagClass, .mu, .V, .GRID].map (fun a => (f.attr a).getD (.int 0))) : Res _) := by
    apply mapM_ok
    intro a _
    have := h.attrs a
    unfold readAttr
    cases hfa : f.attr a with
    | none => simp [hfa] at this
    | some v => simp
  unfold readState
  rw [hm, hp, hg, ha]
  simp [needGroup, h.groups, Snapshot.stored, bind, Except.bind, pure, Except.pure]

theorem Rep.read_outside {f : File V} {t : Table V} (h : Rep B f t) {j : Int} (hi : -2 ^ 31 ≤ j ∧ j < 2 ^ 31)
    (hj : ¬ (0 ≤ j ∧ j < t.n)) : readState f j = .error .assertion := by
  obtain ⟨d, hd, hl, _⟩ := h.data _ lambdas_mem
  have hu : ¬ u64 j < d.layers := by
    have := h.range
    by_cases h0 : 0 ≤ j
    · rw [u64_of_nonneg h0 (by omega)]; omega
    · have := u64_of_neg (by omega : j < 0) hi.1; omega
  have : readRow f .lambdas j = .error .assertion := by simp [readRow, hd, hu]
  simp [readState, readMain, List.mapM_cons, this, bind, Except.bind]

theorem Rep.check {f : File V} {t : Table V} (h : Rep B f t) :
    checkConvergence (some f) = .ok (t.anyConv, t.last) := by
  simp [checkConvergence, h.groups, h.conv, h.last]

theorem writeOps_putAttr_new {s : Snapshot V} {it n : Nat} {keep conv : Bool} {a : AttrName}
    {v : Attr V} (h : Op.putAttr a v ∈ writeOps B s it n keep false conv) :
    (a = .lastLambdaIt ∧ v = .int it) ∨ (a, v) ∈ paramAttrs B s conv := by
  have hlay : ∀ q, Op.putAttr a v ∉ layerOps s it n false q := by
    intro q hq; simp [layerOps] at hq
  simp only [writeOps, List.mem_append] at h
  rcases h with (((h | h) | h) | h) | h
  · obtain ⟨q, _, hq⟩ := List.mem_flatMap.mp h; exact absurd hq (hlay q)
  · right
    simp only [newParamOps, Bool.false_eq_true, ↓reduceIte, List.mem_cons, reduceCtorEq, false_or] at h
    obtain ⟨q, hq, hq2⟩ := List.mem_flatMap.mp h
    simp [attrOps] at hq2
    obtain ⟨rfl, rfl⟩ := hq2
    exact hq
  · cases conv
    · simp [statusOps, attrOps] at h; exact Or.inl h
    · simp [statusOps, attrOps] at h
      rcases h with h | ⟨rfl, rfl⟩
      · exact Or.inl h
      · right; simp [paramAttrs]
  · cases keep <;> simp [groupOps] at h
  · obtain ⟨q, _, hq⟩ := List.mem_flatMap.mp h; exact absurd hq (hlay q)

theorem paramAttrs_unique {s : Snapshot V} {conv : Bool} {a : AttrName} {v w : Attr V}
    (hv : (a, v) ∈ paramAttrs B s conv) (hw : (a, w) ∈ paramAttrs B s conv) : v = w := by
  cases a <;> simp [paramAttrs] at hv hw <;> rw [hv, hw]

theorem rep_create {disk : Option (File V)} {n : Int} {s : Snapshot V} {conv : Bool} {f : File V}
    (hs : (Call.create n s conv).Sane) (h : writeState fill B disk n s conv = (some f, none)) :
    Rep B f ⟨s, n, fun j => if j = 0 then some s else none, 0, conv, conv⟩ := by
  obtain ⟨h1, hn1, hn2⟩ := hs
  simp only [writeState, writeLayer, openFor, Bool.false_eq_true, ↓reduceIte] at h
  have hf : (run fill File.empty (writeOps B s (u64 0) (u64 n) false false conv)).1 = f :=
    Option.some.inj (congrArg Prod.fst h)
  have hok : (run fill File.empty (writeOps B s (u64 0) (u64 n) false false conv)).2 = none :=
    congrArg Prod.snd h
  have hu0 : u64 0 = 0 := rfl
  rw [hu0] at hf hok
  have hsmall : u64 n < 2 ^ 63 := by
    obtain ⟨f₁, f₂, hst⟩ := run_none_mem _ _ (writeOps_mkDs_mem B s 0 (u64 n) false conv lambdas_mem) _ hok
    exact (step_mkDs hst).1
  have hpos : 0 < u64 n := by
    obtain ⟨f₁, f₂, hst⟩ := run_none_mem _ _ (writeOps_check_mem B s 0 (u64 n) false false conv) _ hok
    simp only [step] at hst
    split at hst
    · assumption
    · cases hst
  have hnn : 0 ≤ n := by
    by_contra hneg
    have := u64_of_neg (by omega : n < 0) (by omega)
    omega
  have hun : u64 n = n.toNat := u64_of_nonneg hnn (by omega)
  have hrange : 1 ≤ n ∧ n < 2 ^ 31 := by omega
  have hattr : ∀ a v, (a, v) ∈ paramAttrs B s conv → f.attr a = some v := by
    intro a v hav
    rw [← hf]
    refine run_estab (fun f => f.attr a = some v) _ (.putAttr a v) ?_ ?_ ?_ _ hok
    · simp only [writeOps, List.mem_append]
      refine Or.inl (Or.inl (Or.inl (Or.inr ?_)))
      simp only [newParamOps, Bool.false_eq_true, ↓reduceIte, List.mem_cons, reduceCtorEq, false_or]
      exact List.mem_flatMap.mpr ⟨(a, v), hav, by simp [attrOps]⟩
    · intro f f' hst; exact step_putAttr hst
    · intro o ho f f' hf hst
      by_cases hoo : ∃ w, o = .putAttr a w
      · obtain ⟨w, rfl⟩ := hoo
        have hw := step_putAttr hst
        rcases writeOps_putAttr_new ho with ⟨rfl, _⟩ | hw'
        · simp [paramAttrs] at hav
        · rw [hw, paramAttrs_unique hw' hav]
      · exact step_attr hst (fun w hw => hoo ⟨w, hw⟩) hf
  refine ⟨hrange, ?_, h1, ?_, ?_, ?_, ?_, ?_, hattr⟩
  · intro p hp
    have hsh : ∃ d, f.ds p = some d ∧ d.layers = u64 n ∧ d.width = (s.content p).length := by
      rw [← hf]
      refine run_estab (fun f => ∃ d, f.ds p = some d ∧ d.layers = u64 n ∧ d.width = (s.content p).length)
        _ _ (writeOps_mkDs_mem B s 0 (u64 n) false conv hp) ?_ ?_ _ hok
      · intro f f' hst
        exact ⟨_, (step_mkDs hst).2, rfl, rfl⟩
      · rintro o ho f f' ⟨d, hd, hl, hw⟩ hst
        obtain ⟨d', hd', hl', hw', _⟩ := step_ds hst hd
        exact ⟨d', hd', hl'.trans hl, hw'.trans hw⟩
    have hrw : ∃ d, f.ds p = some d ∧ d.row 0 = s.content p := by
      rw [← hf]
      refine run_estab (fun f => ∃ d, f.ds p = some d ∧ d.row 0 = s.content p)
        _ _ (writeOps_putRow_mem B s 0 (u64 n) false false conv hp) ?_ ?_ _ hok
      · intro f f' hst
        obtain ⟨d, d', _, hd', _, _, _, _, hr⟩ := step_putRow hst
        exact ⟨d', hd', hr⟩
      · rintro o ho f f' ⟨d, hd, hr⟩ hst
        by_cases hoo : ∃ r, o = .putRow p 0 r
        · obtain ⟨r, rfl⟩ := hoo
          obtain ⟨d, d', _, hd', _, _, _, _, hr'⟩ := step_putRow hst
          exact ⟨d', hd', hr'.trans (writeOps_putRow ho).2⟩
        · obtain ⟨d', hd', _, _, hrows⟩ := step_ds hst hd
          exact ⟨d', hd', (hrows 0 (fun r hr => hoo ⟨r, hr⟩)).trans hr⟩
    obtain ⟨d, hd, hl, hw⟩ := hsh
    obtain ⟨d', hd', hr⟩ := hrw
    rw [hd] at hd'
    cases hd'
    refine ⟨d, hd, hl.trans hun, hw, ?_⟩
    intro j s' hj
    simp only at hj
    split_ifs at hj with hj0
    · cases hj; subst hj0; exact hr
  · intro j s' hj
    simp only at hj
    split_ifs at hj with hj0
    · simp only; omega
  · intro g
    rw [← hf]
    refine run_estab (fun f => f.grp g = true) _ (.mkGrp g) ?_ ?_ ?_ _ hok
    · simp only [writeOps, List.mem_append]
      cases g with
      | parameters => exact Or.inl (Or.inl (Or.inl (Or.inr (by simp [newParamOps]))))
      | freqParams => exact Or.inl (Or.inr (by simp [groupOps]))
      | grid g => exact Or.inl (Or.inr (by simp [groupOps, mem_gridNames]))
    · intro f f' hst; exact step_mkGrp hst
    · intro o ho f f' hg hst; exact step_grp hst hg
  · rw [← hf]
    refine run_estab (fun f => f.attr .lastLambdaIt = some (.int 0)) _ _
      (writeOps_last_mem B s 0 (u64 n) false false conv) ?_ ?_ _ hok
    · intro f f' hst; exact step_putAttr hst
    · intro o ho f f' hf hst
      by_cases hoo : ∃ w, o = .putAttr .lastLambdaIt w
      · obtain ⟨w, rfl⟩ := hoo
        rw [step_putAttr hst, writeOps_putLast ho]; rfl
      · exact step_attr hst (fun w hw => hoo ⟨w, hw⟩) hf
  · simp
  · exact hattr _ _ (by simp [paramAttrs])

/-- The number of layers that `add_state_to_hdf` reads from the file. -/
theorem Rep.size {f : File V} {t : Table V} (h : Rep B f t) :
    ∃ d, f.ds .lambdas = some d ∧ d.layers * d.width = t.n.toNat := by
  obtain ⟨d, hd, hl, hw, _⟩ := h.data _ lambdas_mem
  exact ⟨d, hd, by rw [hl, hw, h.one, Nat.mul_one]⟩

/-- Adding a layer inside the range runs the write operations. -/
theorem Rep.add_inside {f : File V} {t : Table V} (h : Rep B f t) {it : Int} (s : Snapshot V) (conv : Bool)
    (h0 : 0 ≤ it) (h1 : it < t.n) :
    addState fill B (some f) it s conv =
      (some (run fill f (writeOps B s it.toNat t.n.toNat true true conv)).1,
        (run fill f (writeOps B s it.toNat t.n.toNat true true conv)).2) := by
  obtain ⟨d, hd, hsz⟩ := h.size
  have hr := h.range
  have hu : u64 it = it.toNat := u64_of_nonneg h0 (by omega)
  have hun : u64 ((t.n.toNat : Nat) : Int) = t.n.toNat := by
    rw [u64_of_nonneg (by omega) (by omega)]; omega
  simp only [addState, hd, hsz, hu]
  rw [if_pos (by omega)]
  simp only [writeLayer, openFor, ↓reduceIte, hu, hun]

theorem Rep.add_outside {f : File V} {t : Table V} (h : Rep B f t) {it : Int} (s : Snapshot V) (conv : Bool)
    (hi : -2 ^ 31 ≤ it ∧ it < 2 ^ 31) (hout : ¬ (0 ≤ it ∧ it < t.n)) :
    addState fill B (some f) it s conv = (some f, none) := by
  obtain ⟨d, hd, hsz⟩ := h.size
  have hr := h.range
  simp only [addState, hd, hsz]
  rw [if_neg]
  by_cases h0 : 0 ≤ it
  · rw [u64_of_nonneg h0 (by omega)]; omega
  · have := u64_of_neg (by omega : it < 0) hi.1; omega

/-- Whatever part of a write to an existing file has been executed, other layers are untouched, and so is what
the file reports apart from the layer being written. -/
theorem Rep.during {f : File V} {t : Table V} (h : Rep B f t) {it : Nat} {s : Snapshot V} {conv : Bool}
    {n : Nat} {ops : List (Op V)} (hops : ∀ o ∈ ops, o ∈ writeOps B s it n true true conv) :
    (∀ p ∈ allPaths, ∃ d, (run fill f ops).1.ds p = some d ∧ d.layers = t.n.toNat ∧
      d.width = (t.created.content p).length ∧
      ∀ j s, t.layer j = some s → j.toNat ≠ it → d.row j.toNat = s.content p) ∧
    (∀ g, (run fill f ops).1.grp g = true) ∧
    ((run fill f ops).1.attr .lastLambdaIt = some (.int t.last) ∨
      (run fill f ops).1.attr .lastLambdaIt = some (.int it)) ∧
    ((run fill f ops).1.attr .isConverged = some (.bool t.anyConv) ∨
      (conv = true ∧ (run fill f ops).1.attr .isConverged = some (.bool true))) ∧
    (∀ a v, (a, v) ∈ paramAttrs B t.created t.anyConv → a ≠ .isConverged →
      (run fill f ops).1.attr a = some v) := by
  refine ⟨?_, ?_, ?_, ?_, ?_⟩
  · intro p hp
    refine run_inv (fun f => ∃ d, f.ds p = some d ∧ d.layers = t.n.toNat ∧
      d.width = (t.created.content p).length ∧
      ∀ j s, t.layer j = some s → j.toNat ≠ it → d.row j.toNat = s.content p) _ ?_ f ?_
    · rintro o ho f f' ⟨d, hd, hl, hw, hr⟩ hst
      obtain ⟨d', hd', hl', hw', hr'⟩ := step_ds hst hd
      refine ⟨d', hd', hl'.trans hl, hw'.trans hw, ?_⟩
      intro j s' hj hne
      rw [hr' j.toNat, hr j s' hj hne]
      rintro r rfl
      exact hne (writeOps_putRow (hops _ ho)).1
    · obtain ⟨d, hd, hl, hw, hr⟩ := h.data p hp
      exact ⟨d, hd, hl, hw, fun j s hj _ => hr j s hj⟩
  · intro g
    exact run_inv (fun f => f.grp g = true) _ (fun o _ f f' hg hst => step_grp hst hg) f (h.groups g)
  · refine run_inv (fun f => f.attr .lastLambdaIt = some (.int t.last) ∨
      f.attr .lastLambdaIt = some (.int it)) _ ?_ f (Or.inl h.last)
    intro o ho f f' hf hst
    by_cases hoo : ∃ w, o = .putAttr .lastLambdaIt w
    · obtain ⟨w, rfl⟩ := hoo
      right
      rw [step_putAttr hst, writeOps_putLast (hops _ ho)]
    · rcases hf with hf | hf
      · exact Or.inl (step_attr hst (fun w hw => hoo ⟨w, hw⟩) hf)
      · exact Or.inr (step_attr hst (fun w hw => hoo ⟨w, hw⟩) hf)
  · refine run_inv (fun f => f.attr .isConverged = some (.bool t.anyConv) ∨
      (conv = true ∧ f.attr .isConverged = some (.bool true))) _ ?_ f (Or.inl h.conv)
    intro o ho f f' hf hst
    by_cases hoo : ∃ w, o = .putAttr .isConverged w
    · obtain ⟨w, rfl⟩ := hoo
      right
      rcases writeOps_putAttr_keep (hops _ ho) with ⟨hc, _⟩ | ⟨hc, _, rfl⟩
      · cases hc
      · exact ⟨hc, step_putAttr hst⟩
    · rcases hf with hf | ⟨hc, hf⟩
      · exact Or.inl (step_attr hst (fun w hw => hoo ⟨w, hw⟩) hf)
      · exact Or.inr ⟨hc, step_attr hst (fun w hw => hoo ⟨w, hw⟩) hf⟩
  · intro a v hav hne
    refine run_inv (fun f => f.attr a = some v) _ ?_ f (h.params a v hav)
    intro o ho f f' hf hst
    refine step_attr hst ?_ hf
    rintro w rfl
    rcases writeOps_putAttr_keep (hops _ ho) with ⟨rfl, _⟩ | ⟨_, rfl, _⟩
    · simp [paramAttrs] at hav
    · exact hne rfl

theorem rep_add {f f' : File V} {t : Table V} (h : Rep B f t) {it : Int} {s : Snapshot V} {conv : Bool}
    (hs : (Call.add it s conv).Sane) (hadd : addState fill B (some f) it s conv = (some f', none)) :
    ∀ t', Table.after (some t) (.add it s conv) = some t' → Rep B f' t' := by
  intro t' ht'
  obtain ⟨h1, hi⟩ := hs
  simp only [Table.after, Option.map_some, Option.some.injEq] at ht'
  by_cases hin : 0 ≤ it ∧ it < t.n
  · rw [if_pos hin] at ht'
    subst ht'
    rw [h.add_inside s conv hin.1 hin.2] at hadd
    have hf : (run fill f (writeOps B s it.toNat t.n.toNat true true conv)).1 = f' :=
      Option.some.inj (congrArg Prod.fst hadd)
    have hok := congrArg Prod.snd hadd
    simp only at hok
    obtain ⟨hd, hg, hl, hc, hp⟩ := h.during (fill := fill) (it := it.toNat) (s := s) (conv := conv)
      (n := t.n.toNat) (ops := writeOps B s it.toNat t.n.toNat true true conv) (fun o ho => ho)
    rw [hf] at hd hg hl hc hp
    have hcv : f'.attr .isConverged = some (.bool (t.anyConv || conv)) := by
      cases hconv : conv with
      | false =>
        rcases hc with hc | ⟨hc, _⟩
        · simpa using hc
        · simp [hconv] at hc
      | true =>
        rw [Bool.or_true, ← hf]
        subst hconv
        refine run_estab (fun f => f.attr .isConverged = some (.bool true)) _ (.putAttr .isConverged (.bool true))
          ?_ ?_ ?_ _ hok
        · simp only [writeOps, List.mem_append]
          exact Or.inl (Or.inl (Or.inr (by simp [statusOps, attrOps])))
        · intro f f' hst; exact step_putAttr hst
        · intro o ho f f' hf hst
          by_cases hoo : ∃ w, o = .putAttr .isConverged w
          · obtain ⟨w, rfl⟩ := hoo
            rw [step_putAttr hst, writeOps_putConv ho]
          · exact step_attr hst (fun w hw => hoo ⟨w, hw⟩) hf
    refine ⟨h.range, ?_, h.one, ?_, hg, ?_, ?_, hcv, ?_⟩
    · intro p hpp
      obtain ⟨d, hdd, hdl, hdw, hdr⟩ := hd p hpp
      have hrw : ∃ d, f'.ds p = some d ∧ d.row it.toNat = s.content p := by
        rw [← hf]
        refine run_estab (fun f => ∃ d, f.ds p = some d ∧ d.row it.toNat = s.content p)
          _ _ (writeOps_putRow_mem B s it.toNat t.n.toNat true true conv hpp) ?_ ?_ _ hok
        · intro f f' hst
          obtain ⟨d, d', _, hd', _, _, _, _, hr⟩ := step_putRow hst
          exact ⟨d', hd', hr⟩
        · rintro o ho f f' ⟨d, hd, hr⟩ hst
          by_cases hoo : ∃ r, o = .putRow p it.toNat r
          · obtain ⟨r, rfl⟩ := hoo
            obtain ⟨d, d', _, hd', _, _, _, _, hr'⟩ := step_putRow hst
            exact ⟨d', hd', hr'.trans (writeOps_putRow ho).2⟩
          · obtain ⟨d', hd', _, _, hrows⟩ := step_ds hst hd
            exact ⟨d', hd', (hrows _ (fun r hr => hoo ⟨r, hr⟩)).trans hr⟩
      obtain ⟨d', hd', hr'⟩ := hrw
      rw [hdd] at hd'
      cases hd'
      refine ⟨d, hdd, hdl, hdw, ?_⟩
      intro j s' hj
      simp only at hj
      split_ifs at hj with hjit
      · cases hj; subst hjit; exact hr'
      · have := h.inside j s' hj
        exact hdr j s' hj (by omega)
    · intro j s' hj
      simp only at hj
      split_ifs at hj with hjit
      · subst hjit; exact hin
      · exact h.inside j s' hj
    · rw [← hf]
      refine run_estab (fun f => f.attr .lastLambdaIt = some (.int it)) _ _
        (writeOps_last_mem B s it.toNat t.n.toNat true true conv) ?_ ?_ _ hok
      · intro f f' hst
        rw [step_putAttr hst, Int.toNat_of_nonneg hin.1]
      · intro o ho f f' hf hst
        by_cases hoo : ∃ w, o = .putAttr .lastLambdaIt w
        · obtain ⟨w, rfl⟩ := hoo
          rw [step_putAttr hst, writeOps_putLast ho, Int.toNat_of_nonneg hin.1]
        · exact step_attr hst (fun w hw => hoo ⟨w, hw⟩) hf
    · simp
    · intro a v hav
      by_cases ha : a = .isConverged
      · subst ha
        simp [paramAttrs] at hav
        rw [hav]; exact hcv
      · refine hp a v ?_ ha
        cases a <;> simp [paramAttrs] at hav ha ⊢ <;> exact hav
  · rw [if_neg hin] at ht'
    subst ht'
    rw [h.add_outside s conv hi hin] at hadd
    cases hadd
    exact h

/-- Every completed sequence of calls leaves a file that stores the expected table. -/
theorem history_rep (h : List (Call V)) :
    ∀ (disk : Option (File V)) (t : Option (Table V)),
    ((disk = none ∧ t = none) ∨ ∃ f t', disk = some f ∧ t = some t' ∧ Rep B f t') →
    (∀ c ∈ h, c.Sane) → ∀ disk', history fill B disk h = (disk', none) →
    ((disk' = none ∧ h.foldl Table.after t = none) ∨
      ∃ f t', disk' = some f ∧ h.foldl Table.after t = some t' ∧ Rep B f t') := by
  induction h with
  | nil =>
    intro disk t hr _ disk' hh
    simp only [history, Prod.mk.injEq, and_true] at hh
    subst hh
    exact hr
  | cons c cs ih =>
    intro disk t hr hsane disk' hh
    simp only [history] at hh
    have hsc : c.Sane := hsane c (by simp)
    have hscs : ∀ c ∈ cs, c.Sane := fun c' h => hsane c' (List.mem_cons_of_mem _ h)
    rcases hcall : call fill B disk c with ⟨d, e⟩
    cases e with
    | some e => simp [hcall] at hh
    | none =>
      simp only [hcall] at hh
      refine ih d (Table.after t c) ?_ hscs disk' hh
      cases c with
      | create n s conv =>
        right
        simp only [call] at hcall
        have hd : ∃ f, d = some f := by
          have := congrArg Prod.fst hcall
          simp only [writeState] at this
          exact ⟨_, this.symm⟩
        obtain ⟨f, rfl⟩ := hd
        exact ⟨f, _, rfl, rfl, rep_create hsc hcall⟩
      | add it s conv =>
        simp only [call] at hcall
        rcases hr with ⟨rfl, rfl⟩ | ⟨f, t', rfl, rfl, hrep⟩
        · simp [addState] at hcall
        · right
          have hd : ∃ f', d = some f' := by
            have := congrArg Prod.fst hcall
            simp only [addState] at this
            split at this
            · exact ⟨_, this.symm⟩
            · split at this
              · exact ⟨_, this.symm⟩
              · exact ⟨_, this.symm⟩
          obtain ⟨f', rfl⟩ := hd
          refine ⟨f', _, rfl, rfl, ?_⟩
          exact rep_add hrep hsc hcall _ rfl

end Verif.Hdf5
