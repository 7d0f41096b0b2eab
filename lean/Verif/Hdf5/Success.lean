import Verif.Hdf5.Rep

/-
Which calls complete.
-/
namespace Verif.Hdf5

variable {V : Type} {fill : V} {B : Build}

/-- Every operation of a write to an existing, complete file succeeds if the rows have the right lengths. -/
theorem Rep.write_ok {f : File V} {t : Table V} (h : Rep B f t) {it : Nat} {s : Snapshot V} {conv : Bool}
    (hit : it < t.n.toNat)
    (hlen : ∀ p ∈ allPaths, (s.content p).length = (t.created.content p).length) {ops : List (Op V)}
    (hops : ∀ o ∈ ops, o ∈ writeOps B s it t.n.toNat true true conv) :
    (run fill f ops).2 = none := by
  refine (run_ok (fun f => (∀ p ∈ allPaths, ∃ d, f.ds p = some d ∧ d.layers = t.n.toNat ∧
      d.width = (t.created.content p).length) ∧ (∀ g, f.grp g = true) ∧ ∀ a, (f.attr a).isSome = true)
      ops ?_ f ⟨?_, h.groups, h.attrs⟩).1
  · rintro o ho f ⟨hd, hg, ha⟩
    have hsucc : ∃ f', step fill f o = .ok f' := by
      have hmem := hops o ho
      have hlay : ∀ q ∈ allPaths, o ∈ layerOps s it t.n.toNat true q → ∃ f', step fill f o = .ok f' := by
        intro q hq hoq
        obtain ⟨d, hdq, hl, hw⟩ := hd q hq
        simp [layerOps] at hoq
        rcases hoq with rfl | rfl | rfl
        · exact ⟨f, by simp [step, hit]⟩
        · exact ⟨f, by simp [step, hdq]⟩
        · have hc : it < d.layers ∧ (s.content q).length = d.width := ⟨by omega, by rw [hlen q hq, hw]⟩
          exact ⟨⟨fun q' => if q' = q then some (d.setRow it (s.content q)) else f.ds q', f.grp, f.attr⟩,
            by simp only [step, hdq]; rw [if_pos hc]⟩
      have hat : ∀ a v, ∃ f', step fill f (.putAttr a v) = .ok f' := by
        intro a v
        have := ha a
        cases hfa : f.attr a with
        | none => simp [hfa] at this
        | some w =>
          exact ⟨⟨f.ds, f.grp, fun b => if b = a then some v else f.attr b⟩, by simp only [step, hfa]⟩
      have hna : ∀ a, ∃ f', step fill f (.needAttr a) = .ok f' := by
        intro a; exact ⟨f, by simp [step, ha a]⟩
      have hng : ∀ g, ∃ f', step fill f (.needGrp g) = .ok f' := by
        intro g; exact ⟨f, by simp [step, hg g]⟩
      simp only [writeOps, List.mem_append] at hmem
      rcases hmem with (((hm | hm) | hm) | hm) | hm
      · obtain ⟨q, hq, hoq⟩ := List.mem_flatMap.mp hm
        exact hlay q (List.mem_append_left _ hq) hoq
      · simp [newParamOps] at hm
      · cases conv
        · simp [statusOps, attrOps] at hm
          rcases hm with rfl | rfl | rfl
          · exact hng _
          · exact hna _
          · exact hat _ _
        · simp [statusOps, attrOps] at hm
          rcases hm with rfl | rfl | rfl | rfl | rfl
          · exact hng _
          · exact hna _
          · exact hat _ _
          · exact hna _
          · exact hat _ _
      · simp [groupOps] at hm
        rcases hm with rfl | ⟨g, _, rfl⟩
        · exact hng _
        · exact hng _
      · obtain ⟨q, hq, hoq⟩ := List.mem_flatMap.mp hm
        exact hlay q (List.mem_append_right _ hq) hoq
    obtain ⟨f', hst⟩ := hsucc
    refine ⟨f', hst, ?_, fun g => step_grp hst (hg g), fun a => step_attr_isSome hst (ha a)⟩
    intro p hp
    obtain ⟨d, hdp, hl, hw⟩ := hd p hp
    obtain ⟨d', hd', hl', hw', _⟩ := step_ds hst hdp
    exact ⟨d', hd', hl'.trans hl, hw'.trans hw⟩
  · intro p hp
    obtain ⟨d, hd, hl, hw, _⟩ := h.data p hp
    exact ⟨d, hd, hl, hw⟩

/-! Writing to a new file. -/

theorem run_create_paths {s : Snapshot V} {it n : Nat} (hn : it < n) (hn2 : n < 2 ^ 63) (l : List Path) :
    ∀ f : File V, l.Nodup → (∀ p ∈ l, f.ds p = none) →
      (run fill f (l.flatMap (layerOps s it n false))).2 = none ∧
      (run fill f (l.flatMap (layerOps s it n false))).1.grp = f.grp ∧
      (run fill f (l.flatMap (layerOps s it n false))).1.attr = f.attr ∧
      ∀ q ∉ l, (run fill f (l.flatMap (layerOps s it n false))).1.ds q = f.ds q := by
  induction l with
  | nil => intro f _ _; simp [run]
  | cons p l ih =>
    intro f hnd hno
    have hp : f.ds p = none := hno p (by simp)
    have hstep : run fill f (layerOps s it n false p) =
        (⟨fun q => if q = p then
            some ((⟨n, (s.content p).length, fun _ => List.replicate (s.content p).length fill⟩ :
              Dataset V).setRow it (s.content p)) else f.ds q, f.grp, f.attr⟩, none) := by
      simp only [layerOps, Bool.false_eq_true, ↓reduceIte, List.cons_append, List.nil_append, run, step]
      simp only [hn, ↓reduceIte, hp, Option.isSome_none, Bool.false_eq_true]
      rw [if_neg (by omega)]
      simp only [↓reduceIte, hn, and_self, Prod.mk.injEq, and_true]
      simp only [File.mk.injEq, and_true]
      funext q
      by_cases hq : q = p <;> simp [hq]
    have hrec := ih ⟨fun q => if q = p then
            some ((⟨n, (s.content p).length, fun _ => List.replicate (s.content p).length fill⟩ :
              Dataset V).setRow it (s.content p)) else f.ds q, f.grp, f.attr⟩
        (List.nodup_cons.mp hnd).2 (by
          intro q hq
          have hne : q ≠ p := by
            rintro rfl; exact (List.nodup_cons.mp hnd).1 hq
          simp only [hne, ↓reduceIte]
          exact hno q (List.mem_cons_of_mem _ hq))
    rw [List.flatMap_cons, run_append _ (by rw [hstep]), hstep]
    refine ⟨hrec.1, hrec.2.1, hrec.2.2.1, ?_⟩
    intro q hq
    simp only [List.mem_cons, not_or] at hq
    rw [hrec.2.2.2 q hq.2]
    simp [hq.1]

theorem run_mk_groups (l : List Grp) :
    ∀ f : File V, l.Nodup → (∀ g ∈ l, f.grp g = false) →
      (run fill f (l.map .mkGrp)).2 = none ∧ (run fill f (l.map .mkGrp)).1.ds = f.ds ∧
      (run fill f (l.map .mkGrp)).1.attr = f.attr ∧
      (∀ g, f.grp g = true → (run fill f (l.map .mkGrp)).1.grp g = true) := by
  induction l with
  | nil => intro f _ _; simp [run]
  | cons p l ih =>
    intro f hnd hno
    have hp : f.grp p = false := hno p (by simp)
    simp only [List.map_cons, run, step, hp, Bool.false_eq_true, ↓reduceIte]
    have hrec := ih ⟨f.ds, fun h => if h = p then true else f.grp h, f.attr⟩
      (List.nodup_cons.mp hnd).2 (by
          intro q hq
          have hne : q ≠ p := by
            rintro rfl; exact (List.nodup_cons.mp hnd).1 hq
          simp only [hne, ↓reduceIte]
          exact hno q (List.mem_cons_of_mem _ hq))
    refine ⟨hrec.1, hrec.2.1, hrec.2.2.1, ?_⟩
    intro g hg
    apply hrec.2.2.2
    simp only
    split_ifs <;> simp [hg]

theorem run_mk_attrs (l : List (AttrName × Attr V)) :
    ∀ f : File V, (l.map Prod.fst).Nodup → (∀ q ∈ l, f.attr q.1 = none) →
      (run fill f (l.flatMap (fun q => attrOps false q.1 q.2))).2 = none ∧
      (run fill f (l.flatMap (fun q => attrOps false q.1 q.2))).1.ds = f.ds ∧
      (run fill f (l.flatMap (fun q => attrOps false q.1 q.2))).1.grp = f.grp ∧
      ∀ a ∉ l.map Prod.fst, (run fill f (l.flatMap (fun q => attrOps false q.1 q.2))).1.attr a = f.attr a := by
  induction l with
  | nil => intro f _ _; simp [run]
  | cons p l ih =>
    intro f hnd hno
    have hp : f.attr p.1 = none := hno p (by simp)
    have hstep : run fill f (attrOps false p.1 p.2) =
        (⟨f.ds, f.grp, fun b => if b = p.1 then some p.2 else f.attr b⟩, none) := by
      simp only [attrOps, Bool.false_eq_true, ↓reduceIte, run, step, hp, Option.isSome_none, Prod.mk.injEq, and_true,
        File.mk.injEq, true_and]
      funext b
      by_cases hb : b = p.1 <;> simp [hb]
    simp only [List.map_cons, List.nodup_cons] at hnd
    have hrec := ih ⟨f.ds, f.grp, fun b => if b = p.1 then some p.2 else f.attr b⟩ hnd.2 (by
          intro q hq
          have hne : q.1 ≠ p.1 := by
            intro heq; exact hnd.1 (heq ▸ List.mem_map_of_mem (f := Prod.fst) hq)
          simp only [hne, ↓reduceIte]
          exact hno q (List.mem_cons_of_mem _ hq))
    rw [List.flatMap_cons, run_append _ (by rw [hstep]), hstep]
    refine ⟨hrec.1, hrec.2.1, hrec.2.2.1, ?_⟩
    intro a ha
    simp only [List.map_cons, List.mem_cons, not_or] at ha
    rw [hrec.2.2.2 a ha.2]
    simp [ha.1]

theorem mainPaths_nodup : mainPaths.Nodup := by decide
theorem paramPaths_nodup : paramPaths.Nodup := by decide +kernel
theorem main_not_param : ∀ p ∈ paramPaths, p ∉ mainPaths := by decide +kernel
theorem gridNames_nodup : gridNames.Nodup := by decide

theorem paramAttrs_nodup (s : Snapshot V) (conv : Bool) : ((paramAttrs B s conv).map Prod.fst).Nodup := by
  simp [paramAttrs]

/-- A new file after the state data, the parameters and the attribute for the last layer. -/
theorem run_create_prefix (s : Snapshot V) {it n : Nat} (hn : it < n) (hn2 : n < 2 ^ 63) (conv : Bool) :
    ∃ f : File V, run fill File.empty
        (dataOps s it n false ++ newParamOps B s conv false ++
          (.needGrp .parameters :: attrOps false .lastLambdaIt (.int it))) = (f, none) ∧
      (∀ p ∉ mainPaths, f.ds p = none) ∧ (∀ g, g ≠ .parameters → f.grp g = false) ∧
      f.grp .parameters = true ∧ (f.attr .isConverged).isSome = true ∧
      f.attr .lastLambdaIt = some (.int it) := by
  have h1 := run_create_paths (fill := fill) (s := s) hn hn2 mainPaths File.empty mainPaths_nodup
    (fun p _ => rfl)
  set f1 := (run fill File.empty (mainPaths.flatMap (layerOps s it n false))).1 with hf1
  have hg0 : ∀ g, f1.grp g = false := fun g => by rw [h1.2.1]; rfl
  have ha0 : ∀ a, f1.attr a = none := fun a => by rw [h1.2.2.1]; rfl
  let f2 : File V := ⟨f1.ds, fun h => if h = .parameters then true else false, f1.attr⟩
  have h2 : run fill f1 (newParamOps B s conv false) =
      run fill f2 ((paramAttrs B s conv).flatMap (fun q => attrOps false q.1 q.2)) := by
    simp only [newParamOps, Bool.false_eq_true, ↓reduceIte, run, step, hg0]
    rfl
  have h3 := run_mk_attrs (fill := fill) (paramAttrs B s conv) f2 (paramAttrs_nodup s conv)
    (fun q _ => ha0 q.1)
  set f3 := (run fill f2 ((paramAttrs B s conv).flatMap (fun q => attrOps false q.1 q.2))).1 with hf3
  have hconv : (f3.attr .isConverged).isSome = true := by
    have : f3.attr .isConverged = some (.bool conv) := by
      rw [hf3]
      refine run_estab (fun f => f.attr .isConverged = some (.bool conv)) _ (.putAttr .isConverged (.bool conv))
        ?_ ?_ ?_ _ h3.1
      · exact List.mem_flatMap.mpr ⟨(.isConverged, .bool conv), by simp [paramAttrs], by simp [attrOps]⟩
      · intro f f' hst; exact step_putAttr hst
      · intro o ho f f' hf hst
        by_cases hoo : ∃ w, o = .putAttr .isConverged w
        · obtain ⟨w, rfl⟩ := hoo
          rw [step_putAttr hst]
          obtain ⟨q, hq, hq2⟩ := List.mem_flatMap.mp ho
          simp [attrOps] at hq2
          obtain ⟨hq1, rfl⟩ := hq2
          have := paramAttrs_unique (v := q.2) (w := .bool conv) (a := .isConverged) (conv := conv) (s := s) (B := B)
            (by rw [hq1]; exact hq) (by simp [paramAttrs])
          rw [this]
        · exact step_attr hst (fun w hw => hoo ⟨w, hw⟩) hf
    rw [this]; rfl
  have hlast : f3.attr .lastLambdaIt = none := by
    rw [h3.2.2.2 _ (by simp [paramAttrs])]
    exact ha0 _
  have hg3 : f3.grp .parameters = true := by rw [h3.2.2.1]; simp [f2]
  have h12 : run fill File.empty (dataOps s it n false ++ newParamOps B s conv false) = (f3, none) := by
    rw [run_append _ (by exact h1.1)]
    show run fill f1 _ = _
    rw [h2]
    exact Prod.ext hf3.symm h3.1
  refine ⟨⟨f3.ds, f3.grp, fun b => if b = .lastLambdaIt then some (.int it) else f3.attr b⟩, ?_, ?_, ?_, ?_, ?_, ?_⟩
  · rw [run_append _ (by rw [h12]), h12]
    simp only [run, step, attrOps, hg3, ↓reduceIte, Bool.false_eq_true, hlast, Option.isSome_none,
      Prod.mk.injEq, and_true, File.mk.injEq, true_and]
    funext b
    by_cases hb : b = .lastLambdaIt <;> simp [hb]
  · intro p hp
    show f3.ds p = none
    rw [h3.2.1]
    show f1.ds p = none
    rw [h1.2.2.2 p hp]; rfl
  · intro g hg
    show f3.grp g = false
    rw [h3.2.2.1]
    simp [f2, hg]
  · exact hg3
  · simp [hconv]
  · simp

/-- Creating a file for a state that is not flagged as converged completes. -/
theorem create_ok (disk : Option (File V)) (s : Snapshot V) {n : Int} (h0 : 1 ≤ n) (h1 : n < 2 ^ 31) :
    ∃ f, writeState fill B disk n s false = (some f, none) := by
  have hu : u64 n = n.toNat := u64_of_nonneg (by omega) (by omega)
  obtain ⟨f, hf, hds, hgr, hgp, _, _⟩ := run_create_prefix (fill := fill) (B := B) s (it := 0) (n := n.toNat) (by omega)
    (by omega) false
  have hgo := run_mk_groups (fill := fill) (.freqParams :: gridNames.map .grid) f (by decide)
    (by
      intro g hg
      apply hgr
      rintro rfl
      simp at hg)
  set f4 := (run fill f ((Grp.freqParams :: gridNames.map Grp.grid).map Op.mkGrp)).1 with hf4
  have hpa := run_create_paths (fill := fill) (s := s) (it := 0) (n := n.toNat) (by omega) (by omega) paramPaths f4
    paramPaths_nodup (by
      intro p hp
      rw [hgo.2.1]
      exact hds p (main_not_param p hp))
  refine ⟨(run fill f4 (paramPaths.flatMap (layerOps s 0 n.toNat false))).1, ?_⟩
  simp only [writeState, writeLayer, openFor, Bool.false_eq_true, ↓reduceIte, hu]
  have hu0 : u64 0 = 0 := rfl
  rw [hu0]
  have hsplit : writeOps B s 0 n.toNat false false false =
      (dataOps s 0 n.toNat false ++ newParamOps B s false false ++
          (.needGrp .parameters :: attrOps false .lastLambdaIt (.int ((0 : Nat) : Int)))) ++
      ((Grp.freqParams :: gridNames.map Grp.grid).map Op.mkGrp ++ paramPaths.flatMap (layerOps s 0 n.toNat false)) := by
    simp [writeOps, statusOps, groupOps, gridOps, List.map_map, Function.comp_def]
  have hrun : run fill File.empty (writeOps B s 0 n.toNat false false false) =
      run fill f4 (paramPaths.flatMap (layerOps s 0 n.toNat false)) := by
    rw [hsplit, run_append _ (by rw [hf]), hf]
    exact run_append _ hgo.1
  rw [hrun]
  exact congrArg₂ Prod.mk rfl hpa.1

end Verif.Hdf5
