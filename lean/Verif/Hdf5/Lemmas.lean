import Verif.Hdf5.Spec
import Mathlib.Tactic.SplitIfs
import Mathlib.Tactic.Cases

/-
Lemmas about runs of elementary file operations.
-/
namespace Verif.Hdf5

variable {V : Type} {fill : V}

theorem run_append {f : File V} {a : List (Op V)} (b : List (Op V)) (h : (run fill f a).2 = none) :
    run fill f (a ++ b) = run fill (run fill f a).1 b := by
  induction a generalizing f with
  | nil => rfl
  | cons o os ih =>
    simp only [List.cons_append, run] at h ⊢
    cases hs : step fill f o with
    | ok f' => simp only [hs] at h ⊢; exact ih h
    | error e => simp [hs] at h

theorem run_append_error {f : File V} {a : List (Op V)} (b : List (Op V)) {e : Fail}
    (h : (run fill f a).2 = some e) : run fill f (a ++ b) = run fill f a := by
  induction a generalizing f with
  | nil => simp [run] at h
  | cons o os ih =>
    simp only [List.cons_append, run] at h ⊢
    cases hs : step fill f o with
    | ok f' => simp only [hs] at h ⊢; exact ih h
    | error e => rfl

/-- An invariant of the single operations is an invariant of every run, also one that ends in a failure. -/
theorem run_inv (I : File V → Prop) (ops : List (Op V))
    (h : ∀ o ∈ ops, ∀ f f', I f → step fill f o = .ok f' → I f') :
    ∀ f, I f → I (run fill f ops).1 := by
  induction ops with
  | nil => intro f hf; exact hf
  | cons o os ih =>
    intro f hf
    simp only [run]
    cases hs : step fill f o with
    | ok f' =>
      exact ih (fun o ho => h o (List.mem_cons_of_mem _ ho)) f' (h o (by simp) f f' hf hs)
    | error e => exact hf

/-- What one operation establishes and no operation destroys holds after a complete run. -/
theorem run_estab (Q : File V → Prop) (ops : List (Op V)) (o : Op V)
    (ho : o ∈ ops) (he : ∀ f f', step fill f o = .ok f' → Q f')
    (h : ∀ o' ∈ ops, ∀ f f', Q f → step fill f o' = .ok f' → Q f') :
    ∀ f, (run fill f ops).2 = none → Q (run fill f ops).1 := by
  induction ops with
  | nil => simp at ho
  | cons o' os ih =>
    intro f hr
    simp only [run] at hr ⊢
    cases hs : step fill f o' with
    | error e => simp [hs] at hr
    | ok f' =>
      simp only [hs] at hr ⊢
      rcases List.mem_cons.mp ho with rfl | ho'
      · exact run_inv Q os (fun o ho => h o (List.mem_cons_of_mem _ ho)) f' (he f f' hs)
      · exact ih ho' (fun o ho => h o (List.mem_cons_of_mem _ ho)) f' hr

/-- If every operation succeeds under an invariant, the run succeeds. -/
theorem run_ok (I : File V → Prop) (ops : List (Op V))
    (h : ∀ o ∈ ops, ∀ f, I f → ∃ f', step fill f o = .ok f' ∧ I f') :
    ∀ f, I f → (run fill f ops).2 = none ∧ I (run fill f ops).1 := by
  induction ops with
  | nil => intro f hf; exact ⟨rfl, hf⟩
  | cons o os ih =>
    intro f hf
    obtain ⟨f', hs, hf'⟩ := h o (by simp) f hf
    simp only [run, hs]
    exact ih (fun o ho => h o (List.mem_cons_of_mem _ ho)) f' hf'

/-- Every operation of a successful run succeeded at some point. -/
theorem run_none_mem (ops : List (Op V)) (o : Op V) (ho : o ∈ ops) :
    ∀ f, (run fill f ops).2 = none → ∃ f₁ f₂, step fill f₁ o = .ok f₂ := by
  induction ops with
  | nil => simp at ho
  | cons o' os ih =>
    intro f hr
    simp only [run] at hr
    cases hs : step fill f o' with
    | error e => simp [hs] at hr
    | ok f' =>
      simp only [hs] at hr
      rcases List.mem_cons.mp ho with rfl | ho'
      · exact ⟨f, f', hs⟩
      · exact ih ho' f' hr

/-! Effect of one operation. -/

theorem step_grp {f f' : File V} {o : Op V} (h : step fill f o = .ok f') {g : Grp} (hg : f.grp g = true) :
    f'.grp g = true := by
  cases o <;> simp only [step] at h <;> (try split at h) <;> (try split at h) <;> (try split at h) <;>
    first
    | (cases h; done)
    | (cases h; first | exact hg | (simp only; split_ifs <;> simp_all))

theorem step_attr {f f' : File V} {o : Op V} (h : step fill f o = .ok f') {a : AttrName}
    (hno : ∀ v, o ≠ .putAttr a v) {w : Attr V} (hg : f.attr a = some w) : f'.attr a = some w := by
  cases o with
  | mkAttr b =>
    simp only [step] at h
    split at h
    · cases h
    · rename_i hb
      cases h
      simp only
      split_ifs with hab
      · subst hab; simp [hg] at hb
      · exact hg
  | putAttr b v =>
    simp only [step] at h
    split at h
    · cases h
    · cases h
      simp only
      split_ifs with hab
      · subst hab; exact absurd rfl (hno v)
      · exact hg
  | _ =>
    simp only [step] at h
    repeat' (split at h)
    all_goals first | (cases h; exact hg) | cases h

theorem step_attr_isSome {f f' : File V} {o : Op V} (h : step fill f o = .ok f') {a : AttrName}
    (hg : (f.attr a).isSome = true) : (f'.attr a).isSome = true := by
  cases o with
  | mkAttr b =>
    simp only [step] at h
    split at h
    · cases h
    · cases h
      simp only
      split_ifs with hab
      · simp
      · exact hg
  | putAttr b v =>
    simp only [step] at h
    split at h
    · cases h
    · cases h
      simp only
      split_ifs with hab
      · simp
      · exact hg
  | _ =>
    simp only [step] at h
    repeat' (split at h)
    all_goals first | (cases h; exact hg) | cases h

/-- An existing data set keeps its extent, and its rows unless they are written. -/
theorem step_ds {f f' : File V} {o : Op V} (h : step fill f o = .ok f') {p : Path} {d : Dataset V}
    (hd : f.ds p = some d) :
    ∃ d', f'.ds p = some d' ∧ d'.layers = d.layers ∧ d'.width = d.width ∧
      ∀ j, (∀ r, o ≠ .putRow p j r) → d'.row j = d.row j := by
  cases o with
  | mkDs q n w =>
    simp only [step] at h
    split at h
    · cases h
    · split at h
      · cases h
      · rename_i hq _
        cases h
        refine ⟨d, ?_, rfl, rfl, fun _ _ => rfl⟩
        simp only
        split_ifs with hpq
        · subst hpq; simp [hd] at hq
        · exact hd
  | putRow q it r =>
    simp only [step] at h
    split at h
    · cases h
    · rename_i dq hdq
      split at h
      · cases h
        by_cases hpq : p = q
        · subst hpq
          rw [hd] at hdq
          cases hdq
          refine ⟨d.setRow it r, by simp, rfl, rfl, ?_⟩
          intro j hj
          simp only [Dataset.setRow]
          split_ifs with hji
          · subst hji; exact absurd rfl (hj r)
          · rfl
        · exact ⟨d, by simp [hpq, hd], rfl, rfl, fun _ _ => rfl⟩
      · cases h
  | _ =>
    simp only [step] at h
    repeat' (split at h)
    all_goals first | (cases h; exact ⟨d, hd, rfl, rfl, fun _ _ => rfl⟩) | cases h

theorem step_putRow {f f' : File V} {p : Path} {it : Nat} {r : List V}
    (h : step fill f (.putRow p it r) = .ok f') :
    ∃ d d', f.ds p = some d ∧ f'.ds p = some d' ∧ it < d.layers ∧ r.length = d.width ∧
      d'.layers = d.layers ∧ d'.width = d.width ∧ d'.row it = r := by
  simp only [step] at h
  split at h
  · cases h
  · rename_i d hd
    split at h
    · rename_i hc
      cases h
      exact ⟨d, d.setRow it r, hd, by simp, hc.1, hc.2, rfl, rfl, by simp [Dataset.setRow]⟩
    · cases h

theorem step_mkDs {f f' : File V} {p : Path} {n w : Nat} (h : step fill f (.mkDs p n w) = .ok f') :
    n < 2 ^ 63 ∧ f'.ds p = some ⟨n, w, fun _ => List.replicate w fill⟩ := by
  simp only [step] at h
  split at h
  · cases h
  · split at h
    · cases h
    · cases h
      refine ⟨by omega, by simp⟩

theorem step_putAttr {f f' : File V} {a : AttrName} {v : Attr V}
    (h : step fill f (.putAttr a v) = .ok f') : f'.attr a = some v := by
  simp only [step] at h
  split at h
  · cases h
  · cases h; simp

theorem step_needGrp {f f' : File V} {g : Grp} (h : step fill f (.needGrp g) = .ok f') : f'.grp g = true := by
  simp only [step] at h
  split at h
  · cases h; assumption
  · cases h

theorem step_mkGrp {f f' : File V} {g : Grp} (h : step fill f (.mkGrp g) = .ok f') : f'.grp g = true := by
  simp only [step] at h
  split at h
  · cases h
  · cases h; simp

/-! The operations of a write. -/

/-- All data sets written for a state. -/
def allPaths : List Path := mainPaths ++ paramPaths

theorem readMain_subset : ∀ p ∈ readMain, p ∈ mainPaths := by decide

theorem read_subset {p : Path} (h : p ∈ readMain ++ paramPaths) : p ∈ allPaths := by
  rcases List.mem_append.mp h with h | h
  · exact List.mem_append_left _ (readMain_subset p h)
  · exact List.mem_append_right _ h

theorem mem_gridNames (g : GridName) : g ∈ gridNames := by
  cases g with
  | ffreqs => decide
  | _ c => cases c <;> decide

theorem lambdas_mem : Path.lambdas ∈ allPaths := by decide

theorem writeOps_putRow {B : Build} {s : Snapshot V} {it n : Nat} {keep ex conv : Bool} {p : Path} {j : Nat}
    {r : List V} (h : Op.putRow p j r ∈ writeOps B s it n keep ex conv) : j = it ∧ r = s.content p := by
  have hlay : ∀ q, Op.putRow p j r ∈ layerOps s it n ex q → j = it ∧ r = s.content p := by
    intro q hq
    cases ex <;> simp [layerOps] at hq <;> (obtain ⟨rfl, rfl, rfl⟩ := hq; exact ⟨rfl, rfl⟩)
  simp only [writeOps, List.mem_append] at h
  rcases h with (((h | h) | h) | h) | h
  · obtain ⟨q, _, hq⟩ := List.mem_flatMap.mp h; exact hlay q hq
  · cases ex <;> simp [newParamOps, attrOps] at h
  · cases ex <;> cases conv <;> simp [statusOps, attrOps] at h
  · cases keep <;> simp [groupOps] at h
  · obtain ⟨q, _, hq⟩ := List.mem_flatMap.mp h; exact hlay q hq

theorem writeOps_putRow_mem (B : Build) (s : Snapshot V) (it n : Nat) (keep ex conv : Bool) {p : Path}
    (hp : p ∈ allPaths) : Op.putRow p it (s.content p) ∈ writeOps B s it n keep ex conv := by
  have hl : Op.putRow p it (s.content p) ∈ layerOps s it n ex p := by simp [layerOps]
  simp only [writeOps, List.mem_append]
  rcases List.mem_append.mp hp with h | h
  · exact Or.inl (Or.inl (Or.inl (Or.inl (List.mem_flatMap.mpr ⟨p, h, hl⟩))))
  · exact Or.inr (List.mem_flatMap.mpr ⟨p, h, hl⟩)

theorem writeOps_mkDs {B : Build} {s : Snapshot V} {it n : Nat} {keep ex conv : Bool} {p : Path} {m w : Nat}
    (h : Op.mkDs p m w ∈ writeOps B s it n keep ex conv) :
    m = n ∧ w = (s.content p).length ∧ ex = false := by
  have hlay : ∀ q, Op.mkDs p m w ∈ layerOps s it n ex q → m = n ∧ w = (s.content p).length ∧ ex = false := by
    intro q hq
    cases ex <;> simp [layerOps] at hq
    obtain ⟨rfl, rfl, rfl⟩ := hq; exact ⟨rfl, rfl, rfl⟩
  simp only [writeOps, List.mem_append] at h
  rcases h with (((h | h) | h) | h) | h
  · obtain ⟨q, _, hq⟩ := List.mem_flatMap.mp h; exact hlay q hq
  · cases ex <;> simp [newParamOps, attrOps] at h
  · cases ex <;> cases conv <;> simp [statusOps, attrOps] at h
  · cases keep <;> simp [groupOps] at h
  · obtain ⟨q, _, hq⟩ := List.mem_flatMap.mp h; exact hlay q hq

theorem writeOps_mkDs_mem (B : Build) (s : Snapshot V) (it n : Nat) (keep conv : Bool) {p : Path}
    (hp : p ∈ allPaths) : Op.mkDs p n (s.content p).length ∈ writeOps B s it n keep false conv := by
  have hl : Op.mkDs p n (s.content p).length ∈ layerOps s it n false p := by simp [layerOps]
  simp only [writeOps, List.mem_append]
  rcases List.mem_append.mp hp with h | h
  · exact Or.inl (Or.inl (Or.inl (Or.inl (List.mem_flatMap.mpr ⟨p, h, hl⟩))))
  · exact Or.inr (List.mem_flatMap.mpr ⟨p, h, hl⟩)

theorem writeOps_check_mem (B : Build) (s : Snapshot V) (it n : Nat) (keep ex conv : Bool) :
    Op.checkLayer it n ∈ writeOps B s it n keep ex conv := by
  simp only [writeOps, List.mem_append]
  refine Or.inl (Or.inl (Or.inl (Or.inl (List.mem_flatMap.mpr ⟨.lambdas, by decide, ?_⟩))))
  simp [layerOps]

/-- The attributes written to an existing file. -/
theorem writeOps_putAttr_keep {B : Build} {s : Snapshot V} {it n : Nat} {keep conv : Bool} {a : AttrName}
    {v : Attr V} (h : Op.putAttr a v ∈ writeOps B s it n keep true conv) :
    (a = .lastLambdaIt ∧ v = .int it) ∨ (conv = true ∧ a = .isConverged ∧ v = .bool true) := by
  have hlay : ∀ q, Op.putAttr a v ∉ layerOps s it n true q := by
    intro q hq; simp [layerOps] at hq
  simp only [writeOps, List.mem_append] at h
  rcases h with (((h | h) | h) | h) | h
  · obtain ⟨q, _, hq⟩ := List.mem_flatMap.mp h; exact absurd hq (hlay q)
  · simp [newParamOps] at h
  · cases conv
    · simp [statusOps, attrOps] at h; exact Or.inl h
    · simp [statusOps, attrOps] at h
      rcases h with h | h
      · exact Or.inl h
      · exact Or.inr ⟨rfl, h⟩
  · cases keep <;> simp [groupOps] at h
  · obtain ⟨q, _, hq⟩ := List.mem_flatMap.mp h; exact absurd hq (hlay q)

theorem writeOps_last_mem (B : Build) (s : Snapshot V) (it n : Nat) (keep ex conv : Bool) :
    Op.putAttr .lastLambdaIt (.int it) ∈ writeOps B s it n keep ex conv := by
  simp only [writeOps, List.mem_append]
  refine Or.inl (Or.inl (Or.inr ?_))
  cases ex <;> cases conv <;> simp [statusOps, attrOps]

theorem writeOps_putLast {B : Build} {s : Snapshot V} {it n : Nat} {keep ex conv : Bool} {v : Attr V}
    (h : Op.putAttr .lastLambdaIt v ∈ writeOps B s it n keep ex conv) : v = .int it := by
  have hlay : ∀ q, Op.putAttr .lastLambdaIt v ∉ layerOps s it n ex q := by
    intro q hq; cases ex <;> simp [layerOps] at hq
  simp only [writeOps, List.mem_append] at h
  rcases h with (((h | h) | h) | h) | h
  · obtain ⟨q, _, hq⟩ := List.mem_flatMap.mp h; exact absurd hq (hlay q)
  · cases ex <;> simp [newParamOps, attrOps, paramAttrs] at h
  · cases ex <;> cases conv <;> simp [statusOps, attrOps] at h <;> exact h
  · cases keep <;> simp [groupOps] at h
  · obtain ⟨q, _, hq⟩ := List.mem_flatMap.mp h; exact absurd hq (hlay q)

theorem writeOps_putConv {B : Build} {s : Snapshot V} {it n : Nat} {keep ex conv : Bool} {v : Attr V}
    (h : Op.putAttr .isConverged v ∈ writeOps B s it n keep ex conv) : v = .bool conv := by
  have hlay : ∀ q, Op.putAttr .isConverged v ∉ layerOps s it n ex q := by
    intro q hq; cases ex <;> simp [layerOps] at hq
  simp only [writeOps, List.mem_append] at h
  rcases h with (((h | h) | h) | h) | h
  · obtain ⟨q, _, hq⟩ := List.mem_flatMap.mp h; exact absurd hq (hlay q)
  · cases ex <;> simp [newParamOps, attrOps, paramAttrs] at h; exact h
  · cases ex <;> cases conv <;> simp [statusOps, attrOps] at h <;> exact h
  · cases keep <;> simp [groupOps] at h
  · obtain ⟨q, _, hq⟩ := List.mem_flatMap.mp h; exact absurd hq (hlay q)

/-! Reading. -/

theorem mapM_ok {α β : Type} (l : List α) (F : α → Res β) (G : α → β) (h : ∀ a ∈ l, F a = .ok (G a)) :
    l.mapM F = .ok (l.map G) := by
  induction l with
  | nil => rfl
  | cons a l ih =>
    rw [List.mapM_cons, h a (by simp), ih (fun b hb => h b (List.mem_cons_of_mem _ hb))]
    rfl

theorem u64_of_nonneg {z : Int} (h0 : 0 ≤ z) (h1 : z < 2 ^ 64) : u64 z = z.toNat := by
  unfold u64; rw [Int.emod_eq_of_lt h0 h1]

theorem u64_of_neg {z : Int} (h0 : z < 0) (h1 : -2 ^ 31 ≤ z) : 2 ^ 63 ≤ u64 z := by
  unfold u64
  have : z % 2 ^ 64 = z + 2 ^ 64 := by
    rw [← Int.add_emod_right, Int.emod_eq_of_lt] <;> omega
  omega

end Verif.Hdf5
