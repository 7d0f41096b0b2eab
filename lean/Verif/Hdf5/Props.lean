import Verif.Hdf5.Success

/-
C51: saved layers can be read back and are isolated from each other.
C53: saving a converged state in a new file, updating a missing file, the convergence flag.
C79: the configuration restored from a file.
-/
namespace Verif.Hdf5

variable {V : Type} {fill : V} {B : Build}

/-- C51.  After any sequence of completed calls the file holds, in every layer, the state most recently written
to it; reading a layer outside the table is refused. -/
theorem c51_read_back (h : List (Call V)) (hsane : ∀ c ∈ h, c.Sane) (disk : Option (File V))
    (hh : history fill B none h = (disk, none)) :
    match Table.afterAll h with
    | none => disk = none
    | some t => ∃ f, disk = some f ∧
        (∀ j s, t.layer j = some s → readState f j = .ok s.stored) ∧
        (∀ j, -2 ^ 31 ≤ j → j < 2 ^ 31 → ¬ (0 ≤ j ∧ j < t.n) → readState f j = .error .assertion) := by
  rcases history_rep h none none (Or.inl ⟨rfl, rfl⟩) hsane disk hh with ⟨hd, ht⟩ | ⟨f, t, hd, ht, hrep⟩
  · simp only [Table.afterAll, ht]; exact hd
  · simp only [Table.afterAll, ht]
    exact ⟨f, hd, fun j s hj => hrep.read hj, fun j h0 h1 hj => hrep.read_outside ⟨h0, h1⟩ hj⟩

/-- C51.  Adding a layer changes no other layer of any file, even if the call fails half-way. -/
theorem c51_isolated (f : File V) (it : Int) (s : Snapshot V) (conv : Bool) (p : Path) (d : Dataset V)
    (hd : f.ds p = some d) (j : Int) (hj : u64 j ≠ u64 it) :
    ∃ f', (addState fill B (some f) it s conv).1 = some f' ∧ readRow f' p j = readRow f p j := by
  simp only [addState]
  split
  · exact ⟨f, rfl, rfl⟩
  · split
    · refine ⟨_, rfl, ?_⟩
      simp only [writeLayer, openFor, ↓reduceIte]
      have key := run_inv (fill := fill) (fun g => ∃ d', g.ds p = some d' ∧ d'.layers = d.layers ∧
          d'.row (u64 j) = d.row (u64 j))
        (writeOps B s (u64 it) (u64 ((‹Dataset V›.layers * ‹Dataset V›.width : Nat) : Int)) true true conv) (by
          rintro o ho g g' ⟨d', hd', hl, hr⟩ hst
          obtain ⟨d'', hd'', hl'', _, hr''⟩ := step_ds hst hd'
          refine ⟨d'', hd'', hl''.trans hl, ?_⟩
          rw [hr'' (u64 j), hr]
          rintro r rfl
          exact hj (writeOps_putRow ho).1) f ⟨d, hd, rfl, rfl⟩
      obtain ⟨d', hd', hl, hr⟩ := key
      simp only [readRow, hd, hd', hl, hr]
    · exact ⟨f, rfl, rfl⟩

/-- C53.  Creating a file for a state that is flagged as converged always fails: the flag is created a second
time.  (All states, all files, all numbers of layers.) -/
theorem c53_converged_new_file_refuted (disk : Option (File V)) (s : Snapshot V) (n : Int) (h0 : 1 ≤ n)
    (h1 : n < 2 ^ 31) : (writeState fill B disk n s true).2 = some .exception := by
  have hu : u64 n = n.toNat := u64_of_nonneg (by omega) (by omega)
  obtain ⟨f, hf, _, _, _, hc, _⟩ := run_create_prefix (fill := fill) (B := B) s (it := 0) (n := n.toNat) (by omega)
    (by omega) true
  simp only [writeState, writeLayer, openFor, Bool.false_eq_true, ↓reduceIte, hu]
  have hu0 : u64 0 = 0 := rfl
  rw [hu0]
  have hsplit : writeOps B s 0 n.toNat false false true =
      (dataOps s 0 n.toNat false ++ newParamOps B s true false ++
          (.needGrp .parameters :: attrOps false .lastLambdaIt (.int ((0 : Nat) : Int)))) ++
      (.mkAttr .isConverged :: .putAttr .isConverged (.bool true) ::
        (groupOps false ++ gridOps s 0 n.toNat false)) := by
    simp [writeOps, statusOps, attrOps]
  rw [hsplit, run_append _ (by rw [hf]), hf]
  simp [run, step, hc]

/-- C53.  Updating a file that does not exist fails, for every state, layer and flag, although the routine
creates the missing file: it then opens groups that it has not created. -/
theorem c53_missing_file_refuted (s : Snapshot V) (it n : Int) (conv : Bool) (h0 : 0 ≤ it) (h1 : it < n)
    (h2 : n < 2 ^ 31) :
    (writeLayer fill B none s it n true conv).2 = some .exception ∧
    addState fill B none it s conv = (none, some .exception) := by
  refine ⟨?_, rfl⟩
  have hu : u64 n = n.toNat := u64_of_nonneg (by omega) (by omega)
  have hui : u64 it = it.toNat := u64_of_nonneg (by omega) (by omega)
  obtain ⟨f, hf, _, hg, _, hc, _⟩ := run_create_prefix (fill := fill) (B := B) s (it := it.toNat) (n := n.toNat)
    (by omega) (by omega) conv
  simp only [writeLayer, openFor, ↓reduceIte, hu, hui]
  have hsplit : writeOps B s it.toNat n.toNat true false conv =
      (dataOps s it.toNat n.toNat false ++ newParamOps B s conv false ++
          (.needGrp .parameters :: attrOps false .lastLambdaIt (.int it.toNat))) ++
      ((if conv then attrOps false .isConverged (.bool conv) else []) ++
        (groupOps true ++ gridOps s it.toNat n.toNat false)) := by
    simp [writeOps, statusOps]
  rw [hsplit, run_append _ (by rw [hf]), hf]
  cases conv
  · simp [run, groupOps, step, hg]
  · simp [run, attrOps, step, hc]

/-- A snapshot in which every data set is the single value `x`. -/
def constSnapshot (x : V) : Snapshot V := ⟨fun _ => [x], 10, 1, x, x, x, x, x, x⟩

/-- What does hold: creating a file for a state not flagged as converged, and adding states of the same shape
to layers of the table, complete; after any completed calls the file reports the layer most recently written,
and it reports convergence iff some write since its creation was flagged as converged.
Missing: creation with the flag set, update of a missing file (both fail), and the flag of the *most recent*
write. -/
theorem c53_partial :
    (∀ (disk : Option (File V)) (s : Snapshot V) (n : Int), 1 ≤ n → n < 2 ^ 31 →
      ∃ f, writeState fill B disk n s false = (some f, none)) ∧
    (∀ (h : List (Call V)) (disk : Option (File V)) (t : Table V) (it : Int) (s : Snapshot V) (conv : Bool),
      (∀ c ∈ h, c.Sane) → history fill B none h = (disk, none) → Table.afterAll h = some t →
      0 ≤ it → it < t.n → (∀ p, (s.content p).length = (t.created.content p).length) →
      ∃ f, addState fill B disk it s conv = (some f, none)) ∧
    (∀ (h : List (Call V)) (disk : Option (File V)) (t : Table V),
      (∀ c ∈ h, c.Sane) → history fill B none h = (disk, none) → Table.afterAll h = some t →
      checkConvergence disk = .ok (t.anyConv, t.last)) := by
  refine ⟨fun disk s n h0 h1 => create_ok disk s h0 h1, ?_, ?_⟩
  · intro h disk t it s conv hsane hh ht h0 h1 hlen
    rcases history_rep h none none (Or.inl ⟨rfl, rfl⟩) hsane disk hh with ⟨_, ht'⟩ | ⟨f, t', hd, ht', hrep⟩
    · rw [Table.afterAll, ht'] at ht; cases ht
    · rw [Table.afterAll, ht'] at ht
      cases ht
      subst hd
      rw [hrep.add_inside s conv h0 h1]
      exact ⟨_, congrArg₂ Prod.mk rfl (hrep.write_ok (by omega) (fun p _ => hlen p) (fun o ho => ho))⟩
  · intro h disk t hsane hh ht
    rcases history_rep h none none (Or.inl ⟨rfl, rfl⟩) hsane disk hh with ⟨_, ht'⟩ | ⟨f, t', hd, ht', hrep⟩
    · rw [Table.afterAll, ht'] at ht; cases ht
    · rw [Table.afterAll, ht'] at ht
      cases ht
      subst hd
      exact hrep.check

/-- Sequences of an initial write and further writes of states of the same shape complete. -/
theorem history_adds_ok (s₀ : Snapshot V) (hs₀ : (s₀.content .lambdas).length = 1) (n : Int) (h0 : 1 ≤ n)
    (h1 : n < 2 ^ 31) (l : List (Int × Snapshot V × Bool))
    (hl : ∀ x ∈ l, (0 ≤ x.1 ∧ x.1 < n) ∧ ∀ p, (x.2.1.content p).length = (s₀.content p).length) :
    ∃ disk, history fill B none (.create n s₀ false :: l.map (fun x => .add x.1 x.2.1 x.2.2)) = (disk, none) := by
  obtain ⟨f, hf⟩ := create_ok (fill := fill) (B := B) none s₀ h0 h1
  have hrep := rep_create (fill := fill) (B := B) (disk := none) ⟨hs₀, by omega, h1⟩ hf
  simp only [history, call, hf]
  generalize ht : (⟨s₀, n, fun j => if j = 0 then some s₀ else none, 0, false, false⟩ : Table V) = t at hrep
  have hn : t.n = n := by rw [← ht]
  have hcr : t.created = s₀ := by rw [← ht]
  clear ht hf
  induction l generalizing f t with
  | nil => exact ⟨_, rfl⟩
  | cons x l ih =>
    obtain ⟨⟨hx0, hx1⟩, hx⟩ := hl x (by simp)
    have hok := hrep.write_ok (fill := fill) (it := x.1.toNat) (s := x.2.1) (conv := x.2.2)
      (ops := writeOps B x.2.1 x.1.toNat t.n.toNat true true x.2.2) (by omega)
      (fun p _ => by rw [hx p, hcr]) (fun o ho => ho)
    have hadd := hrep.add_inside (fill := fill) x.2.1 x.2.2 hx0 (by omega)
    rw [hok] at hadd
    simp only [List.map_cons, history, call, hadd]
    have hr := rep_add hrep (by
      refine ⟨?_, ?_, ?_⟩
      · rw [hx, hs₀]
      · omega
      · omega) hadd _ rfl
    refine ih (fun y hy => hl y (List.mem_cons_of_mem _ hy)) _ _ hr ?_ ?_
    · dsimp only; split_ifs <;> exact hn
    · dsimp only; split_ifs <;> exact hcr

/-- C53.  The flag read back is not that of the most recent write: once a converged state has been saved, a
later state that is not converged leaves the flag set. -/
theorem c53_stale_flag_refuted (x : V) :
    ∃ (h : List (Call V)) (disk : Option (File V)) (t : Table V),
      (∀ c ∈ h, c.Sane) ∧ history fill B none h = (disk, none) ∧ Table.afterAll h = some t ∧
      t.conv = false ∧ checkConvergence disk = .ok (true, t.last) := by
  obtain ⟨disk, hd⟩ := history_adds_ok (fill := fill) (B := B) (constSnapshot x) rfl 2 (by decide) (by decide)
    [(0, constSnapshot x, true), (1, constSnapshot x, false)] (by simp [constSnapshot])
  have hsane : ∀ c ∈ ((Call.create 2 (constSnapshot x) false) ::
      [((0 : Int), constSnapshot x, true), (1, constSnapshot x, false)].map (fun x => Call.add x.1 x.2.1 x.2.2)),
      c.Sane := by
    intro c hc
    simp at hc
    rcases hc with rfl | rfl | rfl <;> simp [Call.Sane, constSnapshot]
  exact ⟨_, disk, _, hsane, hd, rfl, rfl, c53_partial.2.2 _ _ _ hsane hd rfl⟩

/-- C53.  No file, or a file whose creation stopped before the parameters were written, reads as "not converged, no
layer"; creating a file without room for a layer fails. -/
theorem c53_nothing_saved :
    checkConvergence (none : Option (File V)) = .ok (false, -1) ∧
    (∀ f : File V, f.grp .parameters = false → checkConvergence (some f) = .ok (false, -1)) ∧
    (∀ (disk : Option (File V)) (s : Snapshot V) (conv : Bool), (writeState fill B disk 0 s conv).2 = some .assertion) := by
  refine ⟨rfl, fun f hf => by simp [checkConvergence, hf], fun disk s conv => ?_⟩
  rfl

/-- C79.  Of the configuration all parameters except the number of ODE steps are restored as they were when
the file was created. -/
theorem c79_partial (h : List (Call V)) (disk : Option (File V)) (t : Table V)
    (hsane : ∀ c ∈ h, c.Sane) (hh : history fill B none h = (disk, none)) (ht : Table.afterAll h = some t) :
    ∃ f cfg, disk = some f ∧ readConfig f = .ok cfg ∧
      cfg.nLoops = some t.created.nLoops ∧ cfg.U = some t.created.U ∧ cfg.gamma = some t.created.gamma ∧
      cfg.T = some t.created.T ∧ cfg.epsilon = some t.created.epsilon := by
  rcases history_rep h none none (Or.inl ⟨rfl, rfl⟩) hsane disk hh with ⟨_, ht'⟩ | ⟨f, t', hd, ht', hrep⟩
  · rw [Table.afterAll, ht'] at ht; cases ht
  · rw [Table.afterAll, ht'] at ht
    cases ht
    have hp := hrep.params
    refine ⟨f, ⟨some t.created.nLoops, some t.created.U, some t.created.gamma, some t.created.T,
      some t.created.epsilon, none⟩, hd, ?_, rfl, rfl, rfl, rfl, rfl⟩
    have e1 := hp .REG _ (by simp [paramAttrs]; rfl)
    have e2 := hp .nODE _ (by simp [paramAttrs]; rfl)
    have e3 := hp .Gamma _ (by simp [paramAttrs]; rfl)
    have e4 := hp .maxDiagClass _ (by simp [paramAttrs]; rfl)
    have e5 := hp .nLoops _ (by simp [paramAttrs]; rfl)
    have e6 := hp .T _ (by simp [paramAttrs]; rfl)
    have e7 := hp .mu _ (by simp [paramAttrs]; rfl)
    have e8 := hp .U _ (by simp [paramAttrs]; rfl)
    have e9 := hp .epsilon _ (by simp [paramAttrs]; rfl)
    have e10 := hp .V _ (by simp [paramAttrs]; rfl)
    simp [readConfig, needGroup, hrep.groups, readAsInt, readAsDouble, e1, e2, e3, e4, e5, e6, e7, e8, e9, e10,
      bind, Except.bind, pure, Except.pure]

/-- C79.  The number of ODE steps is indeterminate after every successful read of every file: an integer is
read into a floating-point variable. -/
theorem c79_refuted (h : List (Call V)) (disk : Option (File V)) (t : Table V)
    (hsane : ∀ c ∈ h, c.Sane) (hh : history fill B none h = (disk, none)) (ht : Table.afterAll h = some t)
    (f : File V) (hf : disk = some f) (cfg : Config V) (hc : readConfig f = .ok cfg) : cfg.nODE = none := by
  rcases history_rep h none none (Or.inl ⟨rfl, rfl⟩) hsane disk hh with ⟨_, ht'⟩ | ⟨f', t', hd, ht', hrep⟩
  · rw [Table.afterAll, ht'] at ht; cases ht
  · rw [hf] at hd
    cases hd
    have e2 := hrep.params .nODE _ (by simp [paramAttrs]; rfl)
    simp only [readConfig, readAsDouble, e2, bind, Except.bind, pure, Except.pure] at hc
    repeat' (split at hc)
    all_goals first | (cases hc; rfl) | cases hc

/-- A history to which the theorems apply: five layers, layers 3, 1, 3 written, the third flagged. -/
example : ∃ disk, history (0 : Nat) ⟨2, 3, 0⟩ none
    (.create 5 (constSnapshot 7) false ::
      [((3 : Int), constSnapshot 8, false), (1, constSnapshot 9, false), (3, constSnapshot 10, true)].map
        (fun x => .add x.1 x.2.1 x.2.2)) = (disk, none) :=
  history_adds_ok _ rfl 5 (by decide) (by decide) _ (by simp [constSnapshot])

end Verif.Hdf5
