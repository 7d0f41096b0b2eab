import Verif.Parquet.Props
import Verif.Driver.Props
import Verif.FileName.PropsRead

/-! C151 and C152: the scan of the parquet equations over the interaction. -/
namespace Verif.Driver

open Verif.FileName Verif.Parquet

variable {S : Type}

/-- The two files of a scan never coincide. -/
theorem all_ne_fin (b : Build) (c : Config) (v : Int) (Lam Lam' : ℚ) : scanAll b c v Lam ≠ scanFin b c v Lam' := by
  have key : ∀ l l' : Str, l ++ showInt v ++ ".h5".toList ≠ l' ++ "_final.h5".toList := by
    intro l l' h
    obtain ⟨d, m, hd⟩ := showInt_last v l
    rw [hd] at h
    have h' := congrArg List.reverse h
    simp at h'
    have := digit_mem d
    rw [h'.1] at this
    revert this; decide
  intro h
  refine key (?_ : Str) _ (Eq.trans ?_ h)
  · exact directory b (job b c) ++ ("parquetInit4_U_over_Delta=".toList ++
      (showDouble (c.U / ((c.Gamma + Lam) * (1 / 2))) ++ ("_T=".toList ++ (showDouble c.T ++
      ("_eVg=".toList ++ (showDouble (c.epsilon + c.U * (1 / 2)) ++ ("_n1=".toList ++ (showInt b.nBOS ++
      ("_n2=".toList ++ (showInt b.nBOS2 ++ ("_n3=".toList ++ (showInt b.nBOS3 ++ "_version".toList))))))))))))
  · simp only [scanAll, scanName, List.append_assoc]

/-- What the pass of the scan does when it overwrites. -/
theorem scanStep_over (Ph : Physics S) (b : Build) (c : Config) (v : Int) (Lam : ℚ) (d : Disk S) :
    scanStep Ph b c v true Lam d = ((d.put (scanAll b c v Lam) (fileOf (ownScan Ph b c Lam).1.saved)).put
      (scanFin b c v Lam) (fileOf [⟨0, (ownScan Ph b c Lam).1.stateIn, false⟩]), none) := by
  unfold scanStep
  rw [solver_over]
  rfl

theorem scan_cons (Ph : Physics S) (b : Build) (c : Config) (v : Int) (Lam : ℚ) (Lams : List ℚ) (d : Disk S) :
    scan Ph b c v true (Lam :: Lams) d = scan Ph b c v true Lams ((d.put (scanAll b c v Lam)
      (fileOf (ownScan Ph b c Lam).1.saved)).put (scanFin b c v Lam)
      (fileOf [⟨0, (ownScan Ph b c Lam).1.stateIn, false⟩])) := by
  rw [scan, scanStep_over]

theorem scan_none (Ph : Physics S) (b : Build) (c : Config) (v : Int) (Lams : List ℚ) (d : Disk S) :
    (scan Ph b c v true Lams d).2 = none := by
  induction Lams generalizing d with
  | nil => rfl
  | cons Lam Lams ih => rw [scan_cons, ih]

theorem scan_other (Ph : Physics S) (b : Build) (c : Config) (v : Int) (Lams : List ℚ) (d : Disk S) (p : Str)
    (h : ∀ Lam ∈ Lams, p ≠ scanAll b c v Lam ∧ p ≠ scanFin b c v Lam) : (scan Ph b c v true Lams d).1 p = d p := by
  induction Lams generalizing d with
  | nil => rfl
  | cons Lam Lams ih =>
    obtain ⟨h1, h2⟩ := h Lam List.mem_cons_self
    rw [scan_cons, ih _ (fun x hx => h x (List.mem_cons_of_mem _ hx)), put_other _ _ h2, put_other _ _ h1]

/-- **C151** (scans of the parquet equations).  A scan that overwrites old results, as the one of the main program does,
never fails, and what it writes does not depend on what was on the disk: every file is either left alone or gets
contents that are the same for all earlier histories. -/
theorem c151_scan (Ph : Physics S) (b : Build) (c : Config) (us : List ℚ) (v : Int) (d d' : Disk S) :
    (runParquet Ph b c us v true d).2 = none ∧ ∀ p,
      ((runParquet Ph b c us v true d).1 p = d p ∧ (runParquet Ph b c us v true d').1 p = d' p) ∨
      (runParquet Ph b c us v true d).1 p = (runParquet Ph b c us v true d').1 p := by
  refine ⟨scan_none _ _ _ _ _ _, ?_⟩
  intro p
  unfold runParquet
  generalize FlowGrid.checkpoints c.U c.Gamma b.lambdaIni us = Lams
  have same : ∀ (Lams : List ℚ) (d d' : Disk S), d p = d' p →
      (scan Ph b c v true Lams d).1 p = (scan Ph b c v true Lams d').1 p := by
    intro Lams
    induction Lams with
    | nil => exact fun d d' h => h
    | cons Lam Lams ih =>
      intro d d' h
      rw [scan_cons, scan_cons]
      apply ih
      simp only [Disk.put]
      split_ifs <;> first | rfl | exact h
  induction Lams generalizing d d' with
  | nil => exact Or.inl ⟨rfl, rfl⟩
  | cons Lam Lams ih =>
    rw [scan_cons, scan_cons]
    by_cases h : p = scanFin b c v Lam ∨ p = scanAll b c v Lam
    · refine Or.inr (same _ _ _ ?_)
      simp only [Disk.put]
      rcases h with h | h
      · rw [if_pos h, if_pos h]
      · split_ifs <;> rfl
    · push Not at h
      rcases ih ((d.put (scanAll b c v Lam) (fileOf (ownScan Ph b c Lam).1.saved)).put (scanFin b c v Lam)
          (fileOf [⟨0, (ownScan Ph b c Lam).1.stateIn, false⟩]))
        ((d'.put (scanAll b c v Lam) (fileOf (ownScan Ph b c Lam).1.saved)).put (scanFin b c v Lam)
          (fileOf [⟨0, (ownScan Ph b c Lam).1.stateIn, false⟩])) with ⟨h1, h2⟩ | h1
      · refine Or.inl ⟨?_, ?_⟩
        · rw [h1, put_other _ _ h.1, put_other _ _ h.2]
        · rw [h2, put_other _ _ h.1, put_other _ _ h.2]
      · exact Or.inr h1

/-- The number in the name is the value of the interaction from which the flow parameter was calculated. -/
theorem ratio_eq {U Gamma u : ℚ} (hU : U ≠ 0) (hu : u ≠ 0) :
    U / ((Gamma + (2 * U / u - Gamma)) * (1 / 2)) = u := by
  field_simp
  ring

/-- Names of a scan agree if and only if the numbers print alike. -/
theorem fin_eq_iff (b : Build) (c : Config) (v : Int) (hU : c.U ≠ 0) {u u' : ℚ} (hu : u ≠ 0) (hu' : u' ≠ 0) :
    scanFin b c v (2 * c.U / u - c.Gamma) = scanFin b c v (2 * c.U / u' - c.Gamma) ↔ Same6 u u' := by
  have key : scanFin b c v (2 * c.U / u - c.Gamma) = scanFin b c v (2 * c.U / u' - c.Gamma) ↔
      showDouble u = showDouble u' := by
    simp only [scanFin, scanName, ratio_eq hU hu, ratio_eq hU hu', List.append_assoc, List.append_cancel_left_eq,
      List.append_cancel_right_eq]
  rw [key]
  constructor
  · intro h
    have : showDouble u ++ '_' :: ([] : Str) = showDouble u' ++ '_' :: [] := by rw [h]
    exact (double_field (by decide) this).1
  · intro h
    simp only [showDouble, h.1, h.2]

theorem checkpoints_split (U Gamma lini : ℚ) (pre : List ℚ) (u : ℚ) (post : List ℚ)
    (hpre : ∀ x ∈ pre, 0 ≤ 2 * U / x - Gamma) (h0 : 0 ≤ 2 * U / u - Gamma) (h1 : 2 * U / u - Gamma ≤ lini) :
    ∃ l, FlowGrid.checkpoints U Gamma lini (pre ++ u :: post) =
      l ++ (2 * U / u - Gamma) :: FlowGrid.checkpoints U Gamma lini post := by
  induction pre with
  | nil =>
    refine ⟨[], ?_⟩
    rw [List.nil_append, FlowGrid.checkpoints]
    simp only [not_lt.mpr h0, h1, if_true, if_false]
    rfl
  | cons x pre ih =>
    obtain ⟨l, hl⟩ := ih (fun y hy => hpre y (List.mem_cons_of_mem _ hy))
    rw [List.cons_append, FlowGrid.checkpoints]
    simp only [not_lt.mpr (hpre x List.mem_cons_self), if_false, hl]
    split_ifs
    · exact ⟨_ :: l, rfl⟩
    · exact ⟨l, rfl⟩

theorem checkpoints_mem (U Gamma lini : ℚ) (us : List ℚ) (y : ℚ) (h : y ∈ FlowGrid.checkpoints U Gamma lini us) :
    ∃ u ∈ us, y = 2 * U / u - Gamma := by
  induction us with
  | nil => exact absurd h List.not_mem_nil
  | cons u us ih =>
    rw [FlowGrid.checkpoints] at h
    split_ifs at h with h1 h2
    · exact absurd h List.not_mem_nil
    · rcases List.mem_cons.mp h with h | h
      · exact ⟨u, List.mem_cons_self, h⟩
      · obtain ⟨x, hx, e⟩ := ih h
        exact ⟨x, List.mem_cons_of_mem _ hx, e⟩
    · obtain ⟨x, hx, e⟩ := ih h
      exact ⟨x, List.mem_cons_of_mem _ hx, e⟩

theorem scan_append (Ph : Physics S) (b : Build) (c : Config) (v : Int) (l m : List ℚ) (d : Disk S) :
    scan Ph b c v true (l ++ m) d = scan Ph b c v true m (scan Ph b c v true l d).1 := by
  induction l generalizing d with
  | nil => rfl
  | cons x l ih => rw [List.cons_append, scan_cons, ih, scan_cons]

/-- **C152** (what holds).  If no earlier value of the list is so large that its flow parameter is negative, and no later
value prints like it, then the scan leaves the result for this value: the final state of the iteration, in a file whose
name shows the value. -/
theorem c152_result_partial (Ph : Physics S) (b : Build) (c : Config) (v : Int) (d : Disk S) (hU : c.U ≠ 0)
    (pre : List ℚ) (u : ℚ) (post : List ℚ) (hpre : ∀ x ∈ pre, 0 ≤ 2 * c.U / x - c.Gamma)
    (h0 : 0 ≤ 2 * c.U / u - c.Gamma) (h1 : 2 * c.U / u - c.Gamma ≤ b.lambdaIni) (hu : u ≠ 0)
    (hpost : ∀ x ∈ post, x ≠ 0 ∧ ¬ Same6 x u) :
    Holds (runParquet Ph b c (pre ++ u :: post) v true d).1 (scanFin b c v (2 * c.U / u - c.Gamma))
      (ownScan Ph b c (2 * c.U / u - c.Gamma)).1.stateIn := by
  obtain ⟨l, hl⟩ := checkpoints_split c.U c.Gamma b.lambdaIni pre u post hpre h0 h1
  unfold runParquet
  rw [hl, scan_append, scan_cons]
  refine ⟨fileOf [⟨0, (ownScan Ph b c (2 * c.U / u - c.Gamma)).1.stateIn, false⟩], ?_, rfl, rfl⟩
  rw [scan_other, put_self]
  intro y hy
  obtain ⟨x, hx, rfl⟩ := checkpoints_mem _ _ _ _ _ hy
  refine ⟨(all_ne_fin b c v _ _).symm, ?_⟩
  intro h
  exact (hpost x hx).2 ((fin_eq_iff b c v hU (hpost x hx).1 hu).mp h.symm)

/-- **C152** (earlier results kept).  Without overwriting, a converged file of an earlier scan is taken over: its last state
is written to the final file, and no other file is touched.  A file that is not converged is continued from its last
state. -/
theorem c152_kept_partial (Ph : Physics S) (b : Build) (c : Config) (v : Int) (d : Disk S) (u : ℚ)
    (h0 : 0 ≤ 2 * c.U / u - c.Gamma) (h1 : 2 * c.U / u - c.Gamma ≤ b.lambdaIni) (f : File S) (s : S)
    (hf : d (scanAll b c v (2 * c.U / u - c.Gamma)) = some f) (hs : f.read f.last = some s) :
    (f.converged = true → (runParquet Ph b c [u] v false d).2 = none ∧
      Holds (runParquet Ph b c [u] v false d).1 (scanFin b c v (2 * c.U / u - c.Gamma)) s ∧
      ∀ p, p ≠ scanFin b c v (2 * c.U / u - c.Gamma) → (runParquet Ph b c [u] v false d).1 p = d p) ∧
    (f.converged = false → 0 ≤ f.last → (runParquet Ph b c [u] v false d).2 = none ∧
      Holds (runParquet Ph b c [u] v false d).1 (scanFin b c v (2 * c.U / u - c.Gamma))
        (solve (Ph.prob b c (2 * c.U / u - c.Gamma)) (1 / 10 ^ 6) 100 1 s).1.stateIn ∧
      (∃ g, (runParquet Ph b c [u] v false d).1 (scanAll b c v (2 * c.U / u - c.Gamma)) = some g ∧
        g.read g.last = some (solve (Ph.prob b c (2 * c.U / u - c.Gamma)) (1 / 10 ^ 6) 100 1 s).1.stateIn) ∧
      ∀ p, p ≠ scanFin b c v (2 * c.U / u - c.Gamma) → p ≠ scanAll b c v (2 * c.U / u - c.Gamma) →
        (runParquet Ph b c [u] v false d).1 p = d p) := by
  set L := 2 * c.U / u - c.Gamma with hL
  have e : runParquet Ph b c [u] v false d = scan Ph b c v false [L] d := by
    unfold runParquet
    rw [FlowGrid.checkpoints]
    simp only [← hL, not_lt.mpr h0, h1, if_true, if_false, FlowGrid.checkpoints]
  obtain ⟨p1, -, p3, -⟩ := c57_partial (Ph.prob b c L) (Ph.prep b c L) (1 / 10 ^ 6) 100 1 (Or.inr rfl)
  rw [e]
  constructor
  · intro hc
    have h : scan Ph b c v false [L] d = (d.put (scanFin b c v L) (fileOf [⟨0, s, false⟩]), none) := by
      simp only [scan, scanStep, hf, p1 f false s hc hs]
    rw [h]
    exact ⟨rfl, ⟨_, put_self _ _ _, rfl, rfl⟩, fun p hp => put_other _ _ hp⟩
  · intro hc hl
    have h : scan Ph b c v false [L] d = ((d.put (scanAll b c v L)
        (fileOf (solve (Ph.prob b c L) (1 / 10 ^ 6) 100 1 s).1.saved)).put (scanFin b c v L)
        (fileOf [⟨0, (solve (Ph.prob b c L) (1 / 10 ^ 6) 100 1 s).1.stateIn, false⟩]), none) := by
      simp only [scan, scanStep, hf, p3 f s hc hl hs]
    rw [h]
    refine ⟨rfl, ⟨_, put_self _ _ _, rfl, rfl⟩, ⟨_, ?_, (fileOf_solve _ _ _ _ _).2.2⟩, fun p hp hp' => ?_⟩
    · exact (put_other _ _ (all_ne_fin b c v _ _)).trans (put_self _ _ _)
    · exact (put_other _ _ hp).trans (put_other _ _ hp')

/-- **C152** fails for lists that begin with a value that is too large: nothing at all is calculated, and no failure is
reported. -/
theorem c152_order_refuted (Ph : Physics S) (b : Build) (c : Config) (v : Int) (d : Disk S) (u : ℚ) (us : List ℚ)
    (h : 2 * c.U / u < c.Gamma) : runParquet Ph b c (u :: us) v true d = (d, none) := by
  unfold runParquet
  rw [FlowGrid.checkpoints]
  simp only [sub_neg.mpr h, if_true]
  rfl

/-- **C152** fails for values that print alike: the result of the first one is replaced by that of the second. -/
theorem c152_precision_refuted (Ph : Physics S) (b : Build) (c : Config) (v : Int) (d : Disk S) (hU : c.U ≠ 0)
    (u u' : ℚ) (hu : u ≠ 0) (hu' : u' ≠ 0) (hs : Same6 u u') (h0 : 0 ≤ 2 * c.U / u - c.Gamma)
    (h0' : 0 ≤ 2 * c.U / u' - c.Gamma) (h1' : 2 * c.U / u' - c.Gamma ≤ b.lambdaIni) :
    Holds (runParquet Ph b c [u, u'] v true d).1 (scanFin b c v (2 * c.U / u - c.Gamma))
      (ownScan Ph b c (2 * c.U / u' - c.Gamma)).1.stateIn := by
  rw [(fin_eq_iff b c v hU hu hu').mpr hs]
  exact c152_result_partial Ph b c v d hU [u] u' [] (by simpa using h0) h0' h1' hu' (by simp)

/-- **C152** fails for convergence: whether the iteration ended converged or not, the scan reports no failure and marks the
final file as not converged. -/
theorem c152_convergence_refuted (Ph : Physics S) (b : Build) (c : Config) (v : Int) (d : Disk S) (u : ℚ)
    (h0 : 0 ≤ 2 * c.U / u - c.Gamma) (h1 : 2 * c.U / u - c.Gamma ≤ b.lambdaIni) :
    (runParquet Ph b c [u] v true d).2 = none ∧
      ∃ f, (runParquet Ph b c [u] v true d).1 (scanFin b c v (2 * c.U / u - c.Gamma)) = some f ∧ f.converged = false ∧
        f.read 0 = some (ownScan Ph b c (2 * c.U / u - c.Gamma)).1.stateIn := by
  refine ⟨scan_none _ _ _ _ _ _, fileOf [⟨0, (ownScan Ph b c (2 * c.U / u - c.Gamma)).1.stateIn, false⟩], ?_, rfl, rfl⟩
  unfold runParquet
  rw [FlowGrid.checkpoints]
  simp only [not_lt.mpr h0, h1, if_true, if_false, FlowGrid.checkpoints]
  rw [scan_cons]
  exact put_self _ _ _

/-- **C152** fails as a whole for every executable and configuration with positive hybridisation. -/
theorem c152_refuted (b : Build) (c : Config) (hU : 0 < c.U) (hG : 0 < c.Gamma) (hL : 0 < b.lambdaIni) :
    ¬ ScanComplete ℕ b c := by
  intro h
  have hu : 2 * c.U / (2 * c.U / (c.Gamma / 2)) < c.Gamma := by
    rw [div_div_cancel₀ (by positivity)]; linarith
  have hv : 2 * c.U / (2 * c.U / c.Gamma) - c.Gamma = 0 := by
    rw [div_div_cancel₀ (by positivity), sub_self]
  have := h ⟨fun _ _ _ => 0, fun _ _ _ => ⟨id, fun _ _ => 0, fun _ _ => none, fun _ _ => none⟩⟩
    [2 * c.U / (c.Gamma / 2), 2 * c.U / c.Gamma] 1 (fun _ => none) (2 * c.U / c.Gamma) (by simp)
    (by rw [hv]) (by rw [hv]; exact hL.le)
  rw [c152_order_refuted _ b c 1 _ _ _ hu] at this
  obtain ⟨f, hf, _⟩ := this
  exact absurd hf (by simp)

end Verif.Driver
