import Verif.FileName.Lemmas
import Verif.Continue.Props

/-
C68: names of result files.
-/
namespace Verif.FileName

/-! The end of the name from a given field on. -/

def fromT (b : Build) (c : Config) : Str :=
  'T' :: '=' :: (showDouble c.T ++ '_' :: 'L' :: '_' :: 'i' :: 'n' :: 'i' :: '=' ::
    (showInt (toInt b.lambdaIni) ++ '_' :: 'n' :: 'O' :: 'D' :: 'E' :: '=' ::
      (showInt c.nODE ++ '.' :: ['h', '5'])))

def fromV (b : Build) (c : Config) : Str :=
  if b.glbV = 0 then fromT b c else 'V' :: '=' :: (showDouble b.glbV ++ '_' :: fromT b c)

def fromGate (b : Build) (c : Config) : Str :=
  if b.phSymm then fromV b c
  else 'e' :: 'V' :: 'g' :: '=' :: (showDouble (c.epsilon + c.U * (1 / 2)) ++ '_' :: fromV b c)

def fromGamma (b : Build) (c : Config) : Str :=
  'G' :: 'a' :: 'm' :: 'm' :: 'a' :: '=' :: (showDouble c.Gamma ++ '_' :: fromGate b c)

def fromN3 (b : Build) (c : Config) : Str :=
  if b.maxDiag ≥ 3 then 'n' :: '3' :: '=' :: (showInt b.nBOS3 ++ '_' :: fromGamma b c) else fromGamma b c

def fromStatic (b : Build) (c : Config) : Str :=
  if b.static then 's' :: 't' :: 'a' :: 't' :: 'i' :: 'c' :: '_' :: fromN3 b c else fromN3 b c

def fromN2 (b : Build) (c : Config) : Str :=
  if b.maxDiag ≥ 2 then 'n' :: '2' :: '=' :: (showInt b.nBOS2 ++ '_' :: fromStatic b c) else fromStatic b c

theorem name_form (b : Build) (c : Config) : filename b c =
    'K' :: (showInt b.maxDiag ++ '_' :: (showInt c.nloops ++ 'L' :: 'F' :: '_' :: 'n' :: '1' :: '=' ::
      (showInt b.nBOS ++ '_' :: fromN2 b c))) := by
  have h1 : fromV b c = (if b.glbV ≠ 0 then ['V', '='] ++ showDouble b.glbV ++ ['_'] else []) ++ fromT b c := by
    by_cases h : b.glbV = 0 <;> simp [fromV, h]
  have h2 : fromGate b c = (if b.phSymm then [] else ['e', 'V', 'g', '='] ++
      showDouble (c.epsilon + c.U * (1 / 2)) ++ ['_']) ++ fromV b c := by
    cases h : b.phSymm <;> simp [fromGate, h]
  have h3 : fromN3 b c = (if b.maxDiag ≥ 3 then ['n', '3', '='] ++ showInt b.nBOS3 ++ ['_'] else []) ++
      fromGamma b c := by
    by_cases h : b.maxDiag ≥ 3 <;> simp [fromN3, h]
  have h4 : fromStatic b c = (if b.static then ['s', 't', 'a', 't', 'i', 'c', '_'] else []) ++ fromN3 b c := by
    cases h : b.static <;> simp [fromStatic, h]
  have h5 : fromN2 b c = (if b.maxDiag ≥ 2 then ['n', '2', '='] ++ showInt b.nBOS2 ++ ['_'] else []) ++
      fromStatic b c := by
    by_cases h : b.maxDiag ≥ 2 <;> simp [fromN2, h]
  rw [h5, h4, h3, fromGamma, h2, h1, fromT]
  simp only [filename, List.append_assoc, List.cons_append, List.nil_append]

/-- C68 (partial: what the name does determine).  If two runs — of the same or of different executables, with any
parameters — have equal file names, then they agree in the diagrammatic classes kept, in the number of loops, in the
numbers of frequencies of the classes kept, in static feedback, particle-hole symmetry and the number of ODE steps,
in the *integer part* of the initial flow parameter, and to *six decimals* in hybridisation, temperature, gate voltage
(if there is no particle-hole symmetry) and bias voltage.
Missing: see the refutations below. -/
theorem c68_partial (b b' : Build) (c c' : Config) (h : filename b c = filename b' c') :
    b.maxDiag = b'.maxDiag ∧ c.nloops = c'.nloops ∧ b.nBOS = b'.nBOS ∧ (2 ≤ b.maxDiag → b.nBOS2 = b'.nBOS2) ∧
      b.static = b'.static ∧ (3 ≤ b.maxDiag → b.nBOS3 = b'.nBOS3) ∧ Same6 c.Gamma c'.Gamma ∧
      b.phSymm = b'.phSymm ∧
      (b.phSymm = false → Same6 (c.epsilon + c.U * (1 / 2)) (c'.epsilon + c'.U * (1 / 2))) ∧
      (b.glbV = 0 ↔ b'.glbV = 0) ∧ (b.glbV ≠ 0 → Same6 b.glbV b'.glbV) ∧ Same6 c.T c'.T ∧
      toInt b.lambdaIni = toInt b'.lambdaIni ∧ c.nODE = c'.nODE := by
  rw [name_form, name_form] at h
  obtain ⟨hd, h⟩ := int_field (by decide) (List.cons.inj h).2
  obtain ⟨hl, h⟩ := int_field (by decide) h
  simp only [List.cons.injEq, true_and] at h
  obtain ⟨hn1, h⟩ := int_field (by decide) h
  have h2 : (2 ≤ b.maxDiag → b.nBOS2 = b'.nBOS2) ∧ fromStatic b c = fromStatic b' c' := by
    by_cases hk : b.maxDiag ≥ 2
    · simp only [fromN2, ← hd, hk, if_true, List.cons.injEq, true_and] at h
      obtain ⟨e, h⟩ := int_field (by decide) h
      exact ⟨fun _ => e, h⟩
    · simp only [fromN2, ← hd, hk, if_false] at h
      exact ⟨fun h' => absurd h' hk, h⟩
  obtain ⟨hn2, h⟩ := h2
  have h3 : b.static = b'.static ∧ fromN3 b c = fromN3 b' c' := by
    cases hs : b.static <;> cases hs' : b'.static <;>
      simp only [fromStatic, hs, hs', Bool.false_eq_true, if_true, if_false] at h
    · exact ⟨rfl, h⟩
    · simp only [fromN3, fromGamma] at h
      split_ifs at h <;> simp at h
    · simp only [fromN3, fromGamma] at h
      split_ifs at h <;> simp at h
    · simp only [List.cons.injEq, true_and] at h
      exact ⟨rfl, h⟩
  obtain ⟨hs, h⟩ := h3
  have h4 : (3 ≤ b.maxDiag → b.nBOS3 = b'.nBOS3) ∧ fromGamma b c = fromGamma b' c' := by
    by_cases hk : b.maxDiag ≥ 3
    · simp only [fromN3, ← hd, hk, if_true, List.cons.injEq, true_and] at h
      obtain ⟨e, h⟩ := int_field (by decide) h
      exact ⟨fun _ => e, h⟩
    · simp only [fromN3, ← hd, hk, if_false] at h
      exact ⟨fun h' => absurd h' hk, h⟩
  obtain ⟨hn3, h⟩ := h4
  simp only [fromGamma, List.cons.injEq, true_and] at h
  obtain ⟨hg, h⟩ := double_field (by decide) h
  have h5 : b.phSymm = b'.phSymm ∧
      (b.phSymm = false → Same6 (c.epsilon + c.U * (1 / 2)) (c'.epsilon + c'.U * (1 / 2))) ∧
      fromV b c = fromV b' c' := by
    cases hs : b.phSymm <;> cases hs' : b'.phSymm <;>
      simp only [fromGate, hs, hs', Bool.false_eq_true, if_true, if_false] at h
    · simp only [List.cons.injEq, true_and] at h
      obtain ⟨e, h⟩ := double_field (by decide) h
      exact ⟨rfl, fun _ => e, h⟩
    · simp only [fromV, fromT] at h
      split_ifs at h <;> simp at h
    · simp only [fromV, fromT] at h
      split_ifs at h <;> simp at h
    · exact ⟨rfl, fun h' => by simp at h', h⟩
  obtain ⟨hp, hgate, h⟩ := h5
  have h6 : (b.glbV = 0 ↔ b'.glbV = 0) ∧ (b.glbV ≠ 0 → Same6 b.glbV b'.glbV) ∧ fromT b c = fromT b' c' := by
    by_cases hs : b.glbV = 0 <;> by_cases hs' : b'.glbV = 0 <;>
      simp only [fromV, hs, hs', if_true, if_false] at h
    · exact ⟨by simp [hs, hs'], fun h' => absurd hs h', h⟩
    · simp [fromT] at h
    · simp [fromT] at h
    · simp only [List.cons.injEq, true_and] at h
      obtain ⟨e, h⟩ := double_field (by decide) h
      exact ⟨by simp [hs, hs'], fun _ => e, h⟩
  obtain ⟨hV, hV6, h⟩ := h6
  simp only [fromT, List.cons.injEq, true_and] at h
  obtain ⟨hT, h⟩ := double_field (by decide) h
  simp only [List.cons.injEq, true_and] at h
  obtain ⟨hL, h⟩ := int_field (by decide) h
  simp only [List.cons.injEq, true_and] at h
  obtain ⟨hO, _⟩ := int_field (by decide) h
  exact ⟨hd, hl, hn1, hn2, hs, hn3, hg, hp, hgate, hV, hV6, hT, hL, hO⟩

theorem slash_not_mem (b : Build) (c : Config) : '/' ∉ filename b c := by
  have hi : ∀ z, '/' ∉ showInt z := fun z => showInt_not_mem z (by decide)
  have hx : ∀ x, '/' ∉ showDouble x := fun x => showDouble_not_mem x (by decide)
  intro h
  rw [name_form] at h
  simp only [fromN2, fromStatic, fromN3, fromGamma, fromGate, fromV, fromT] at h
  split_ifs at h <;> simp [hi, hx] at h

/-- Paths determine names and directories. -/
theorem path_split {b b' : Build} {c c' : Config} (h : path b c = path b' c') :
    filename b c = filename b' c' ∧ directory b (job b c) = directory b' (job b' c') := by
  obtain ⟨d, hd⟩ : ∃ d, directory b (job b c) = d ++ ['/'] := ⟨_, rfl⟩
  obtain ⟨d', hd'⟩ : ∃ d, directory b' (job b' c') = d ++ ['/'] := ⟨_, rfl⟩
  rw [path, path, hd, hd'] at h
  have h' := congrArg List.reverse h
  simp only [List.reverse_append, List.reverse_cons, List.reverse_nil, List.nil_append, List.singleton_append] at h'
  obtain ⟨h1, h2⟩ := sep_inj (by rw [List.mem_reverse]; exact slash_not_mem b c)
    (by rw [List.mem_reverse]; exact slash_not_mem b' c') h'
  refine ⟨List.reverse_injective h1, ?_⟩
  rw [hd, hd', List.reverse_injective h2]

/-- C68 (partial: one executable built without `DEBUG_SYMMETRIES`).  Then the directory also determines the
interaction to six decimals. -/
theorem c68_directory_partial (b : Build) (c c' : Config) (hb : b.debugSymm = false) (h : path b c = path b c') :
    Same6 c.U c'.U := by
  have hdir := (path_split h).2
  have fin : ∀ r r' : Str, showDouble c.T ++ '_' :: 'U' :: '=' :: (showDouble c.U ++ r) =
      showDouble c'.T ++ '_' :: 'U' :: '=' :: (showDouble c'.U ++ r') →
      (∃ q q', r = '_' :: q ∧ r' = '_' :: q') ∨ (∃ q q', r = '/' :: q ∧ r' = '/' :: q') → Same6 c.U c'.U := by
    intro r r' he hr
    obtain ⟨_, he⟩ := double_field (by decide) he
    simp only [List.cons.injEq, true_and] at he
    rcases hr with ⟨q, q', rfl, rfl⟩ | ⟨q, q', rfl, rfl⟩
    · exact (double_field (by decide) he).1
    · exact (double_field (by decide) he).1
  cases hk : b.keldysh <;> cases hs : b.sbe <;>
    simp [directory, job, hb, hk, hs] at hdir <;>
    exact fin _ _ hdir (by simp)

/-- The executable as distributed: Keldysh formalism, `DEBUG_SYMMETRIES`, three classes, particle-hole symmetry. -/
def distributed : Build :=
  ⟨true, true, false, 2, 3, 51, 27, 19, false, true, 0, 198 / 10, 1 / 10, 1⟩

/-- C68 fails for the interaction: with `DEBUG_SYMMETRIES` and particle-hole symmetry the path is the same for *every*
interaction and every level position, and for every tolerance of the ODE solver. -/
theorem c68_interaction_refuted (b : Build) (hb : b.debugSymm = true) (hp : b.phSymm = true) (c : Config)
    (U ε ea er : ℚ) : path b { c with U := U, epsilon := ε, epsODEabs := ea, epsODErel := er } = path b c := by
  cases hk : b.keldysh <;> simp [path, directory, filename, hb, hp, hk]

/-- C68 fails for the final flow parameter, the self-energy corrections and (within an integer) the initial flow
parameter in every executable; for the regulator with `DEBUG_SYMMETRIES` or in the Matsubara formalism. -/
theorem c68_builds_refuted (b : Build) (c : Config) (Λ Λ' : ℚ) (corr reg : Int)
    (h : toInt Λ' = toInt b.lambdaIni) (hr : reg = b.REG ∨ b.debugSymm = true ∨ b.keldysh = false) :
    path { b with lambdaFin := Λ, seCorr := corr, lambdaIni := Λ', REG := reg } c = path b c := by
  have hn : filename { b with lambdaFin := Λ, seCorr := corr, lambdaIni := Λ', REG := reg } c = filename b c := by
    simp only [filename, h]
  have hd : ∀ j, directory { b with lambdaFin := Λ, seCorr := corr, lambdaIni := Λ', REG := reg } j =
      directory b j := by
    intro j
    rcases hr with rfl | hr | hr
    · rfl
    · simp only [directory, hr, if_true]
    · simp only [directory, hr, Bool.false_eq_true, if_false]
  rw [path, hn, hd]
  rfl

/-- C68 fails for small parameters in every executable: temperatures below half a millionth share one path. -/
theorem c68_temperature_refuted (b : Build) (c : Config) (T T' : ℚ) (h0 : 0 ≤ T) (h1 : T < 1 / (2 * 10 ^ 6))
    (h0' : 0 ≤ T') (h1' : T' < 1 / (2 * 10 ^ 6)) : path b { c with T := T } = path b { c with T := T' } := by
  have key : ∀ x : ℚ, 0 ≤ x → x < 1 / (2 * 10 ^ 6) → showDouble x = "0.000000".toList := by
    intro x hx hx1
    have hm : micro x = 0 := by
      have hf : ⌊|x| * 10 ^ 6⌋ = 0 := by
        rw [abs_of_nonneg hx, Int.floor_eq_iff]
        constructor
        · simp; linarith
        · norm_num at hx1 ⊢; linarith
      have : |x| * 10 ^ 6 < 1 / 2 := by
        rw [abs_of_nonneg hx]; norm_num at hx1 ⊢; linarith
      simp only [micro, roundEven, hf]
      rw [if_pos (by simpa using this)]
      rfl
    have : ¬ x < 0 := not_lt.mpr hx
    simp only [showDouble, hm, this, if_false]
    decide
  have e : showDouble T = showDouble T' := by rw [key T h0 h1, key T' h0' h1']
  have hj : job b { c with T := T } = job b { c with T := T' } := by simp only [job, e]
  have hn : filename b { c with T := T } = filename b { c with T := T' } := by simp only [filename, e]
  rw [path, path, hj, hn]

/-- C68 fails. -/
theorem c68_refuted : ¬ Distinguishes := by
  intro h
  have := h distributed distributed ⟨1, 1, 1, 1 / 100, 1 / 5, -1 / 2, 0, 0⟩ ⟨1, 1, 2, 1 / 100, 1 / 5, -1, 0, 0⟩
    (c68_interaction_refuted distributed rfl rfl ⟨1, 1, 2, 1 / 100, 1 / 5, -1, 0, 0⟩ 1 (-1 / 2) 0 0)
  simp [SamePhysics] at this

open Verif.Hdf5 Verif.Continue in
/-- Consequence: the flow of `main` started with a file of that name returns the converged result found there,
whatever parameters it was computed with; the state prepared for the requested parameters (`fresh`) has no
influence.  Here `files` is the file system, which holds the result of a completed run with configuration `c`, and the new
run has configuration `c'`. -/
theorem c68_wrong_result_refuted {V : Type} {fill : V} {B : Hdf5.Build} (b : Build) (c c' : Config)
    (hpath : path b c' = path b c) (files : Str → Option (File V)) (h : List (Call V)) (hsane : ∀ x ∈ h, x.Sane)
    (f : File V) (t : Table V) (hf : files (path b c) = some f)
    (hh : history fill B none h = (some f, none)) (ht : Table.afterAll h = some t) (hc : t.anyConv = true) (n : Int)
    (fresh : Snapshot V) :
    ∃ s, t.layer t.last = some s ∧
      startFlow fill B (files (path b c')) n fresh = (some f, .ok (.returns s.stored)) := by
  obtain ⟨s, h1, _, h2, _⟩ := c70_resume h hsane f t hh ht n fresh
  refine ⟨s, h1, ?_⟩
  rw [hpath, hf, h2, hc]
  rfl

/-- The name of a concrete run. -/
example : path distributed ⟨2, 10, 1, 1 / 100, 1 / 5, -1 / 2, 0, 0⟩ =
    "../Data_KF_debug/K3_2LF_n1=51_n2=27_n3=19_Gamma=0.200000_T=0.010000_L_ini=19_nODE=10.h5".toList := by
  decide +kernel

end Verif.FileName
