import Verif.Hdf5.Props
import Mathlib.Tactic.NormNum

/-
C52: crash consistency of result files.
-/
namespace Verif.Hdf5

variable {V : Type} {fill : V} {B : Build}

/-- A completed call is a crash after its last operation. -/
theorem crash_complete (disk : Option (File V)) (c : Call V) :
    ∃ k, crash fill B disk c k = (call fill B disk c).1 := by
  cases c with
  | create n s conv =>
    refine ⟨(writeOps B s 0 (u64 n) false false conv).length, ?_⟩
    simp only [crash, List.take_length, call, writeState, writeLayer, openFor]
    rfl
  | add it s conv =>
    cases disk with
    | none => exact ⟨0, rfl⟩
    | some f =>
      cases hd : f.ds .lambdas with
      | none => exact ⟨0, by simp [crash, call, addState, hd]⟩
      | some d =>
        refine ⟨(writeOps B s (u64 it) (u64 (d.layers * d.width : Nat)) true true conv).length, ?_⟩
        simp only [crash, call, addState, hd]
        split_ifs
        · simp only [List.take_length, writeLayer, openFor, ↓reduceIte]
        · rfl

/-- The part of C52 that holds: if the program is killed while a layer is being added, and the file still
reports another layer as the last one, then that layer is intact and can be read.
Missing: crash points after the report has been changed to the layer being written (refuted below), a rewrite
of the reported layer itself (refuted below), and crashes during creation (refuted below). -/
theorem c52_partial (h : List (Call V)) (hsane : ∀ c ∈ h, c.Sane) (disk : Option (File V))
    (hh : history fill B none h = (disk, none)) (it : Int) (hit : -2 ^ 31 ≤ it ∧ it < 2 ^ 31)
    (s : Snapshot V) (conv : Bool) (k : Nat) (f : File V)
    (hf : crash fill B disk (.add it s conv) k = some f) (b : Bool) (l : Int)
    (hl : checkConvergence (some f) = .ok (b, l)) (hne : l ≠ it) :
    ∃ t s', Table.afterAll h = some t ∧ t.last = l ∧ t.layer l = some s' ∧ readState f l = .ok s'.stored := by
  rcases history_rep h none none (Or.inl ⟨rfl, rfl⟩) hsane disk hh with ⟨hd, ht⟩ | ⟨f₀, t, hd, ht, hrep⟩
  · subst hd; simp [crash] at hf
  · subst hd
    obtain ⟨s', hs'⟩ := Option.isSome_iff_exists.mp hrep.lastLayer
    obtain ⟨d, hdl, hsz⟩ := hrep.size
    simp only [crash, hdl, hsz] at hf
    have hr := hrep.range
    have hlr := hrep.inside _ _ hs'
    by_cases hin : u64 it < t.n.toNat
    · rw [if_pos hin] at hf
      have hin' : 0 ≤ it := by
        by_contra hneg
        have := u64_of_neg (by omega : it < 0) hit.1; omega
      have hui : u64 it = it.toNat := u64_of_nonneg hin' (by omega)
      have hun : u64 ((t.n.toNat : Nat) : Int) = t.n.toNat := by
        rw [u64_of_nonneg (by omega) (by omega)]; omega
      rw [hui, hun] at hf
      have hfe := Option.some.inj hf
      obtain ⟨hdt, hg, hla, hcv, hpar⟩ := hrep.during (fill := fill) (it := it.toNat) (s := s) (conv := conv)
        (n := t.n.toNat) (ops := (writeOps B s it.toNat t.n.toNat true true conv).take k)
        (fun o ho => List.mem_of_mem_take ho)
      rw [hfe] at hdt hg hla hcv hpar
      have hlast : t.last = l ∧ f.attr .lastLambdaIt = some (.int t.last) := by
        rcases hla with hla | hla
        · refine ⟨?_, hla⟩
          rcases hcv with hcv | ⟨_, hcv⟩ <;> simp [checkConvergence, hg, hla, hcv] at hl <;> exact hl.2
        · exfalso
          rw [Int.toNat_of_nonneg hin'] at hla
          rcases hcv with hcv | ⟨_, hcv⟩ <;> simp [checkConvergence, hg, hla, hcv] at hl <;> exact hne hl.2.symm
      refine ⟨t, s', ht, hlast.1, hlast.1 ▸ hs', ?_⟩
      rw [← hlast.1]
      -- the file still represents the table in which only the reported layer is kept
      have hb : ∃ b', f.attr .isConverged = some (.bool b') := by
        rcases hcv with hcv | ⟨_, hcv⟩ <;> exact ⟨_, hcv⟩
      obtain ⟨b', hb'⟩ := hb
      have hrep' : Rep B f ⟨t.created, t.n, fun j => if j = t.last then some s' else none, t.last, false, b'⟩ := by
        refine ⟨hr, ?_, hrep.one, ?_, hg, hlast.2, by simp, hb', ?_⟩
        · intro p hp
          obtain ⟨d, hd1, hd2, hd3, hd4⟩ := hdt p hp
          refine ⟨d, hd1, hd2, hd3, ?_⟩
          intro j s'' hj
          simp only at hj
          split_ifs at hj with hjl
          · cases hj
            subst hjl
            exact hd4 _ _ hs' (by rw [← hlast.1] at hne; omega)
        · intro j s'' hj
          simp only at hj
          split_ifs at hj with hjl
          · subst hjl; exact hlr
        · intro a v hav
          by_cases ha : a = .isConverged
          · subst ha
            simp [paramAttrs] at hav
            rw [hav]; exact hb'
          · refine hpar a v ?_ ha
            cases a <;> simp [paramAttrs] at hav ha ⊢ <;> exact hav
      exact hrep'.read (by simp)
    · rw [if_neg hin] at hf
      cases hf
      have := hrep.check
      rw [this] at hl
      simp only [Except.ok.injEq, Prod.mk.injEq] at hl
      refine ⟨t, s', ht, hl.2, hl.2 ▸ hs', ?_⟩
      rw [← hl.2]
      exact hrep.read hs'

/-- The window in which the file reports a layer whose grid parameters have not been written: it opens during
*every* addition of a layer to *every* file. -/
theorem c52_window (h : List (Call V)) (hsane : ∀ c ∈ h, c.Sane) (f₀ : File V) (t : Table V)
    (hh : history fill B none h = (some f₀, none)) (ht : Table.afterAll h = some t) (it : Int)
    (hin : 0 ≤ it ∧ it < t.n) (s : Snapshot V) (conv : Bool)
    (hlen : ∀ p, (s.content p).length = (t.created.content p).length) :
    ∃ k f b, crash fill B (some f₀) (.add it s conv) k = some f ∧ checkConvergence (some f) = .ok (b, it) ∧
      ∀ g p, readRow f (.param g p) it = readRow f₀ (.param g p) it := by
  rcases history_rep h none none (Or.inl ⟨rfl, rfl⟩) hsane _ hh with ⟨hd, _⟩ | ⟨f, t', hd, ht', hrep⟩
  · cases hd
  cases hd
  rw [Table.afterAll, ht'] at ht
  cases ht
  obtain ⟨d, hdl, hsz⟩ := hrep.size
  have hr := hrep.range
  have hui : u64 it = it.toNat := u64_of_nonneg hin.1 (by omega)
  have hun : u64 ((t.n.toNat : Nat) : Int) = t.n.toNat := by
    rw [u64_of_nonneg (by omega) (by omega)]; omega
  let pre : List (Op V) := dataOps s it.toNat t.n.toNat true ++ newParamOps B s conv true ++ statusOps it.toNat conv true
  have hops : writeOps B s it.toNat t.n.toNat true true conv =
      pre ++ (groupOps true ++ gridOps s it.toNat t.n.toNat true) := by
    simp [writeOps, pre]
  have hsub : ∀ o ∈ pre, o ∈ writeOps B s it.toNat t.n.toNat true true conv := by
    intro o ho; rw [hops]; exact List.mem_append_left _ ho
  have hok := hrep.write_ok (fill := fill) (it := it.toNat) (s := s) (conv := conv) (ops := pre) (by omega)
    (fun p _ => hlen p) hsub
  have hcr : crash fill B (some f₀) (.add it s conv) pre.length = some (run fill f₀ pre).1 := by
    simp only [crash, hdl, hsz, hui, hun]
    rw [if_pos (by omega), hops, List.take_left]
  have hlast : (run fill f₀ pre).1.attr .lastLambdaIt = some (.int it) := by
    refine run_estab (fun f => f.attr .lastLambdaIt = some (.int it)) _ (.putAttr .lastLambdaIt (.int it.toNat))
      ?_ ?_ ?_ _ hok
    · exact List.mem_append_right _ (by cases conv <;> simp [statusOps, attrOps])
    · intro f f' hst; rw [step_putAttr hst, Int.toNat_of_nonneg hin.1]
    · intro o ho f f' hf hst
      by_cases hoo : ∃ w, o = .putAttr .lastLambdaIt w
      · obtain ⟨w, rfl⟩ := hoo
        rw [step_putAttr hst, writeOps_putLast (hsub _ ho), Int.toNat_of_nonneg hin.1]
      · exact step_attr hst (fun w hw => hoo ⟨w, hw⟩) hf
  obtain ⟨_, hg, _, hcv, _⟩ := hrep.during (fill := fill) hsub
  have hchk : ∃ b, checkConvergence (some (run fill f₀ pre).1) = .ok (b, it) := by
    rcases hcv with hcv | ⟨_, hcv⟩
    · exact ⟨t.anyConv, by simp [checkConvergence, hg, hlast, hcv]⟩
    · exact ⟨true, by simp [checkConvergence, hg, hlast, hcv]⟩
  obtain ⟨b, hb⟩ := hchk
  refine ⟨pre.length, _, b, hcr, hb, ?_⟩
  intro g p
  have hds : (run fill f₀ pre).1.ds (.param g p) = f₀.ds (.param g p) := by
    refine run_inv (fun f => f.ds (.param g p) = f₀.ds (.param g p)) _ ?_ f₀ rfl
    intro o ho f f' hf hst
    have hoq : ∀ q, Op.needDs q ∈ pre ∨ True := fun _ => Or.inr trivial
    rcases List.mem_append.mp ho with ho | ho
    · rcases List.mem_append.mp ho with ho | ho
      · obtain ⟨q, hq, hq2⟩ := List.mem_flatMap.mp ho
        simp [layerOps] at hq2
        rcases hq2 with rfl | rfl | rfl
        · simp only [step] at hst
          split at hst
          · cases hst; exact hf
          · cases hst
        · simp only [step] at hst
          split at hst
          · cases hst; exact hf
          · cases hst
        · have hne : Path.param g p ≠ q := by
            rintro rfl
            have : ∀ q ∈ mainPaths, (match q with | .param _ _ => false | _ => true) = true := by decide
            simpa using this _ hq
          simp only [step] at hst
          split at hst
          · cases hst
          · split at hst
            · cases hst
              simp only [hne, ↓reduceIte]; exact hf
            · cases hst
      · simp [newParamOps] at ho
    · have : (∃ g, o = .needGrp g) ∨ (∃ a, o = .needAttr a) ∨ ∃ a v, o = .putAttr a v := by
        cases conv
        · simp [statusOps, attrOps] at ho
          rcases ho with rfl | rfl | rfl
          · exact Or.inl ⟨_, rfl⟩
          · exact Or.inr (Or.inl ⟨_, rfl⟩)
          · exact Or.inr (Or.inr ⟨_, _, rfl⟩)
        · simp [statusOps, attrOps] at ho
          rcases ho with rfl | rfl | rfl | rfl | rfl
          · exact Or.inl ⟨_, rfl⟩
          · exact Or.inr (Or.inl ⟨_, rfl⟩)
          · exact Or.inr (Or.inr ⟨_, _, rfl⟩)
          · exact Or.inr (Or.inl ⟨_, rfl⟩)
          · exact Or.inr (Or.inr ⟨_, _, rfl⟩)
      rcases this with ⟨g, rfl⟩ | ⟨a, rfl⟩ | ⟨a, v, rfl⟩
      · simp only [step] at hst
        split at hst <;> cases hst
        exact hf
      · simp only [step] at hst
        split at hst <;> cases hst
        exact hf
      · simp only [step] at hst
        split at hst <;> cases hst
        exact hf
  simp only [readRow, hds]

/-- Reading a state returns the stored row of every data set that is read. -/
theorem readState_param {f : File V} {it : Int} {r : List (Path × List V)} (h : readState f it = .ok r)
    {p : Path} (hp : p ∈ paramPaths) (x : List V) (hx : readRow f p it = .ok x) : (p, x) ∈ r := by
  have hmapM : ∀ (l : List Path) (rs : List (Path × List V)),
      l.mapM (fun p => do let r ← readRow f p it; pure (p, r)) = (.ok rs : Res _) → p ∈ l → (p, x) ∈ rs := by
    intro l
    induction l with
    | nil => intro rs _ hpl; simp at hpl
    | cons a l ih =>
      intro rs hrs hpl
      rw [List.mapM_cons] at hrs
      cases ha : readRow f a it with
      | error e => simp [ha, bind, Except.bind] at hrs
      | ok y =>
        cases hl : l.mapM (fun p => do let r ← readRow f p it; pure (p, r)) with
        | error e =>
          rw [hl] at hrs
          simp [ha, bind, Except.bind, pure, Except.pure] at hrs
        | ok ys =>
          rw [hl] at hrs
          simp [ha, bind, Except.bind, pure, Except.pure] at hrs
          subst hrs
          rcases List.mem_cons.mp hpl with rfl | hpl
          · rw [ha] at hx; cases hx; simp
          · exact List.mem_cons_of_mem _ (ih ys hl hpl)
  unfold readState at h
  cases hm : readMain.mapM (fun p => do let r ← readRow f p it; pure (p, r)) with
  | error e => rw [hm] at h; simp [bind, Except.bind] at h
  | ok main =>
    cases hpm : paramPaths.mapM (fun p => do let r ← readRow f p it; pure (p, r)) with
    | error e =>
      rw [hm, hpm] at h
      simp only [bind, Except.bind] at h
      repeat' (split at h)
      all_goals cases h
    | ok ps =>
      rw [hm, hpm] at h
      simp only [bind, Except.bind, pure, Except.pure] at h
      repeat' (split at h)
      all_goals first
        | (cases h; exact List.mem_append_right _ (hmapM _ _ hpm hp))
        | cases h

/-- C52 is false: with two layers, a crash while layer 1 is being added leaves a file that reports layer 1 as
the last one although its frequency grids have not been written; what is read is no state that was saved. -/
theorem c52_refuted (x : V) (hx : x ≠ fill) : ¬ CrashConsistent fill B := by
  intro hC
  obtain ⟨f₀, hf₀⟩ := create_ok (fill := fill) (B := B) none (constSnapshot x) (n := 2) (by decide) (by decide)
  have hh : history fill B none [.create 2 (constSnapshot x) false] = (some f₀, none) := by
    simp [history, call, hf₀]
  have hsane : ∀ c ∈ [Call.create 2 (constSnapshot x) false], c.Sane := by
    intro c hc
    simp only [List.mem_singleton] at hc
    subst hc
    simp [Call.Sane, constSnapshot]
  obtain ⟨k, f, b, hcr, hchk, hrow⟩ := c52_window _ hsane f₀ _ hh rfl 1 (by norm_num) (constSnapshot x) false
    (fun p => rfl)
  obtain ⟨c', hc', hread⟩ := hC _ (.add 1 (constSnapshot x) false) k _ (by
    intro c hc
    simp only [List.mem_append, List.mem_singleton] at hc
    rcases hc with rfl | rfl <;> simp [Call.Sane, constSnapshot]) hh f hcr b 1 hchk (by decide)
  have hsnap : c'.snapshot = constSnapshot x := by
    simp only [List.mem_append, List.mem_singleton] at hc'
    rcases hc' with rfl | rfl <;> rfl
  rw [hsnap] at hread
  -- row 1 of the parameters is still the fill value
  have hfill : readRow f₀ (.param .ffreqs .type) 1 = .ok [fill] := by
    have hrep := rep_create (fill := fill) (B := B) (disk := none) (n := 2) (conv := false)
      ⟨rfl, by decide, by decide⟩ hf₀
    simp only [writeState, writeLayer, openFor, Bool.false_eq_true, ↓reduceIte] at hf₀
    have hfe : (run fill File.empty (writeOps B (constSnapshot x) (u64 0) (u64 2) false false false)).1 = f₀ :=
      Option.some.inj (Prod.mk.inj hf₀).1
    have hok : (run fill File.empty (writeOps B (constSnapshot x) (u64 0) (u64 2) false false false)).2 = none :=
      (Prod.mk.inj hf₀).2
    have hu0 : u64 0 ≠ 1 := by decide
    have hu2 : u64 2 = 2 := by decide
    rw [hu2] at hfe hok
    clear hrep hf₀
    have hpm : Path.param .ffreqs .type ∈ allPaths := by decide +kernel
    have hrow : ∃ d, f₀.ds (.param .ffreqs .type) = some d ∧ d.layers = 2 ∧ d.row 1 = [fill] := by
      rw [← hfe]
      refine run_estab (fun f => ∃ d, f.ds (.param .ffreqs .type) = some d ∧ d.layers = 2 ∧ d.row 1 = [fill])
        _ _ (writeOps_mkDs_mem B (constSnapshot x) (u64 0) 2 false false hpm) ?_ ?_ _ hok
      · intro f f' hst
        exact ⟨_, (step_mkDs hst).2, rfl, rfl⟩
      · rintro o ho f f' ⟨d, hd, hl, hr⟩ hst
        obtain ⟨d', hd', hl', _, hr'⟩ := step_ds hst hd
        refine ⟨d', hd', hl'.trans hl, ?_⟩
        rw [hr' 1, hr]
        rintro r rfl
        exact hu0 (writeOps_putRow ho).1.symm
    obtain ⟨d, hd, hl, hr⟩ := hrow
    have hu : u64 1 = 1 := rfl
    simp [readRow, hd, hu, hl, hr]
  have hmem := readState_param hread (p := .param .ffreqs .type) (by decide +kernel) [fill]
    (by rw [hrow, hfill])
  simp only [Snapshot.stored, List.mem_map, Prod.mk.injEq, constSnapshot] at hmem
  obtain ⟨_, _, _, h⟩ := hmem
  exact hx (List.cons.inj h).1

example : ¬ CrashConsistent (V := Nat) 0 ⟨2, 3, 0⟩ := c52_refuted 1 (by decide)

/-- C52, new files: a program killed while it creates a file can leave a file that reports layer 0 as complete
although the groups of the frequency grids do not exist, so that reading it fails; and it can leave a file for
which even the query of the status fails.  This happens for every state. -/
theorem c52_new_file_refuted (disk : Option (File V)) (s : Snapshot V) (n : Int) (h0 : 1 ≤ n) (h1 : n < 2 ^ 31) :
    (∃ k f b, crash fill B disk (.create n s false) k = some f ∧ checkConvergence (some f) = .ok (b, 0) ∧
      ∃ e, readState f 0 = .error e) ∧
    (∃ k f, crash fill B disk (.create n s false) k = some f ∧
      checkConvergence (some f) = .error .exception) := by
  have hu : u64 n = n.toNat := u64_of_nonneg (by omega) (by omega)
  constructor
  · obtain ⟨f, hf, hds, hgr, hgp, hc, hl⟩ := run_create_prefix (fill := fill) (B := B) s (it := 0) (n := n.toNat)
      (by omega) (by omega) false
    let pre : List (Op V) := dataOps s 0 n.toNat false ++ newParamOps B s false false ++
          (.needGrp .parameters :: attrOps false .lastLambdaIt (.int ((0 : Nat) : Int)))
    have hsplit : writeOps B s 0 n.toNat false false false =
        pre ++ (groupOps false ++ gridOps s 0 n.toNat false) := by
      simp [writeOps, statusOps, pre]
    have hconv : f.attr .isConverged = some (.bool false) := by
      have : (run fill File.empty pre).1.attr .isConverged = some (.bool false) := by
        refine run_estab (fun f => f.attr .isConverged = some (.bool false)) _
          (.putAttr .isConverged (.bool false)) ?_ ?_ ?_ _ (by rw [hf])
        · refine List.mem_append_left _ (List.mem_append_right _ ?_)
          simp [newParamOps, paramAttrs, attrOps]
        · intro f f' hst; exact step_putAttr hst
        · intro o ho f f' hf hst
          by_cases hoo : ∃ w, o = .putAttr .isConverged w
          · obtain ⟨w, rfl⟩ := hoo
            have hm : Op.putAttr .isConverged w ∈ writeOps B s 0 n.toNat false false false := by
              rw [hsplit]; exact List.mem_append_left _ ho
            rw [step_putAttr hst, writeOps_putConv hm]
          · exact step_attr hst (fun w hw => hoo ⟨w, hw⟩) hf
      rw [hf] at this; exact this
    refine ⟨pre.length, f, false, ?_, ?_, ?_⟩
    · simp only [crash, hu, hsplit, List.take_left]
      exact congrArg some (congrArg Prod.fst hf)
    · simp [checkConvergence, hgp, hconv, hl]
    · unfold readState
      cases hm : readMain.mapM (fun p => do let r ← readRow f p 0; pure (p, r)) with
      | error e => exact ⟨e, rfl⟩
      | ok m => exact ⟨.exception, by simp [needGroup, hgr, bind, Except.bind]⟩
  · -- killed right after the group of parameters has been created
    have h1' := run_create_paths (fill := fill) (s := s) (it := 0) (n := n.toNat) (by omega) (by omega) mainPaths
      File.empty mainPaths_nodup (fun p _ => rfl)
    let pre : List (Op V) := dataOps s 0 n.toNat false ++ [.mkGrp .parameters]
    have hsplit : ∃ post, writeOps B s 0 n.toNat false false false = pre ++ post := by
      refine ⟨(paramAttrs B s false).flatMap (fun q => attrOps false q.1 q.2) ++ statusOps 0 false false ++
        groupOps false ++ gridOps s 0 n.toNat false, ?_⟩
      simp only [writeOps, newParamOps, Bool.false_eq_true, ↓reduceIte, pre, List.append_assoc, List.cons_append,
        List.nil_append]
    obtain ⟨post, hsplit⟩ := hsplit
    let f1 : File V := (run fill File.empty (mainPaths.flatMap (layerOps s 0 n.toNat false))).1
    have hg1 : f1.grp .parameters = false := by
      show (run fill File.empty (mainPaths.flatMap (layerOps s 0 n.toNat false))).1.grp .parameters = false
      rw [h1'.2.1]; rfl
    have ha1 : f1.attr .isConverged = none := by
      show (run fill File.empty (mainPaths.flatMap (layerOps s 0 n.toNat false))).1.attr .isConverged = none
      rw [h1'.2.2.1]; rfl
    refine ⟨pre.length, ⟨f1.ds, fun h => if h = .parameters then true else f1.grp h, f1.attr⟩, ?_, ?_⟩
    · simp only [crash, hu, hsplit, List.take_left]
      have : run fill File.empty pre = run fill f1 [.mkGrp .parameters] := run_append _ h1'.1
      rw [this]
      simp [run, step, hg1]
    · simp [checkConvergence, ha1]

/-- C52, rewriting: adding a state to the layer that is already the reported one is not atomic either; a crash
after the first data set leaves the new value of Lambda next to the old self-energy. -/
theorem c52_rewrite_refuted (h : List (Call V)) (hsane : ∀ c ∈ h, c.Sane) (f₀ : File V) (t : Table V)
    (hh : history fill B none h = (some f₀, none)) (ht : Table.afterAll h = some t) (s s' : Snapshot V)
    (hs' : t.layer t.last = some s') (conv : Bool)
    (hlen : ∀ p, (s.content p).length = (t.created.content p).length) :
    ∃ k f, crash fill B (some f₀) (.add t.last s conv) k = some f ∧
      checkConvergence (some f) = .ok (t.anyConv, t.last) ∧
      readRow f .lambdas t.last = .ok (s.content .lambdas) ∧
      readRow f .selflist t.last = .ok (s'.content .selflist) := by
  rcases history_rep h none none (Or.inl ⟨rfl, rfl⟩) hsane _ hh with ⟨hd, _⟩ | ⟨f, t', hd, ht', hrep⟩
  · cases hd
  cases hd
  rw [Table.afterAll, ht'] at ht
  cases ht
  have hin := hrep.inside _ _ hs'
  obtain ⟨d, hdl, hsz⟩ := hrep.size
  have hr := hrep.range
  have hui : u64 t.last = t.last.toNat := u64_of_nonneg hin.1 (by omega)
  have hun : u64 ((t.n.toNat : Nat) : Int) = t.n.toNat := by
    rw [u64_of_nonneg (by omega) (by omega)]; omega
  have hops : ∃ post, writeOps B s t.last.toNat t.n.toNat true true conv =
      layerOps s t.last.toNat t.n.toNat true .lambdas ++ post := by
    refine ⟨mainPaths.tail.flatMap (layerOps s t.last.toNat t.n.toNat true) ++ newParamOps B s conv true ++
      statusOps t.last.toNat conv true ++ groupOps true ++ gridOps s t.last.toNat t.n.toNat true, ?_⟩
    have hm : mainPaths = .lambdas :: mainPaths.tail := rfl
    simp only [writeOps, dataOps]
    rw [hm, List.flatMap_cons]
    simp only [List.append_assoc, List.tail_cons]
  obtain ⟨post, hops⟩ := hops
  obtain ⟨d0, hd0, hl0, hw0, hrow0⟩ := hrep.data _ lambdas_mem
  obtain ⟨d1, hd1, hl1, hw1, hrow1⟩ := hrep.data .selflist (by decide)
  have hrun : run fill f₀ (layerOps s t.last.toNat t.n.toNat true .lambdas) =
      (⟨fun q => if q = .lambdas then some (d0.setRow t.last.toNat (s.content .lambdas)) else f₀.ds q,
        f₀.grp, f₀.attr⟩, none) := by
    have hc : t.last.toNat < t.n.toNat := by omega
    have hc' : t.last.toNat < d0.layers ∧ (s.content .lambdas).length = d0.width :=
      ⟨by omega, by rw [hlen, hw0]⟩
    simp [layerOps, run, step, hc, hd0, hc']
  refine ⟨3, ⟨fun q => if q = .lambdas then some (d0.setRow t.last.toNat (s.content .lambdas)) else f₀.ds q,
        f₀.grp, f₀.attr⟩, ?_, ?_, ?_, ?_⟩
  · simp only [crash, hdl, hsz, hui, hun]
    rw [if_pos (by omega), hops]
    have h3 : (layerOps s t.last.toNat t.n.toNat true .lambdas ++ post).take 3 =
        layerOps s t.last.toNat t.n.toNat true .lambdas := by
      simp [layerOps]
    rw [h3, hrun]
  · simp [checkConvergence, hrep.groups, hrep.conv, hrep.last]
  · have : t.last.toNat < d0.layers := by omega
    simp [readRow, hui, Dataset.setRow, this]
  · have : t.last.toNat < d1.layers := by omega
    simp [readRow, hui, hd1, this, hrow1 _ _ hs']

end Verif.Hdf5
