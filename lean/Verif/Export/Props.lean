import Verif.Export.Model
import Mathlib.Tactic.Linarith
import Mathlib.Tactic.Positivity
import Mathlib.Tactic.FieldSimp
import Mathlib.Tactic.NormNum
import Mathlib.Tactic.Push

/-! # C178 – C180: export of numbers, text files, names and compile-time checks -/
namespace Verif.Export

/-! ### C178: export to HDF5 -/

theorem run_append (s t : List Step) (f : Option File) : run (s ++ t) f = run t (run s f) := List.foldl_append ..

/-- Every vector has its own key and at least one entry. -/
structure Proper (keys : List String) (vecs : List (List ℚ)) : Prop where
  enough : vecs.length ≤ keys.length
  distinct : (keys.take vecs.length).Nodup
  filled : ∀ v ∈ vecs, v ≠ []

theorem loop_ok (keys : List String) (vs : List (List ℚ)) (i : Nat) (h1 : i + vs.length ≤ keys.length) (h2 : (keys.take (i + vs.length)).Nodup)
    (h3 : ∀ v ∈ vs, v ≠ []) (l : File) :
    (h5Loop keys i vs).2 = none ∧ run (h5Loop keys i vs).1 (some l) = some (l ++ ((keys.drop i).take vs.length).zip vs) := by
  induction vs generalizing i l with
  | nil => exact ⟨rfl, by simp [h5Loop, run]⟩
  | cons v vs ih =>
    simp only [List.length_cons] at h1 h2
    have hi : i < keys.length := by omega
    have e : keys[i]? = some keys[i] := List.getElem?_eq_getElem hi
    have nm : keys[i] ∉ keys.take i := by
      have t : keys.take (i + 1) = keys.take i ++ [keys[i]] := by simp
      have d : (keys.take (i + 1)).Nodup := h2.sublist (List.take_sublist_take_left (by omega))
      rw [t, List.nodup_append] at d
      intro hm
      exact d.2.2 _ hm _ (by simp) rfl
    have hv : v ≠ [] := h3 v (by simp)
    obtain ⟨a, b⟩ := ih (i + 1) (by omega) (by rwa [show i + 1 + vs.length = i + (vs.length + 1) by omega]) (fun v hv => h3 v (by simp [hv])) (l ++ [(keys[i], v)])
    simp only [h5Loop, e, if_neg nm, if_neg hv]
    refine ⟨a, ?_⟩
    have s : run (Step.create keys[i] v.length :: Step.fill v :: (h5Loop keys (i + 1) vs).1) (some l) = run (h5Loop keys (i + 1) vs).1 (some (l ++ [(keys[i], v)])) := by
      simp [run, Step.apply]
    rw [s, b, List.length_cons, List.drop_eq_getElem_cons hi, List.take_succ_cons, List.zip_cons_cons]
    simp

/-- **C178** (contents). If every vector has a key of its own and is not empty, the export succeeds, and whatever the file contained before,
it then contains exactly the vectors under their keys. Surplus keys are ignored. -/
theorem c178_contents {keys : List String} {vecs : List (List ℚ)} (h : Proper keys vecs) (f : Option File) :
    (writeH5 0 keys vecs).2 = none ∧ run (writeH5 0 keys vecs).1 f = some (keys.zip vecs) := by
  obtain ⟨a, b⟩ := loop_ok keys vecs 0 (by simpa using h.enough) (by simpa using h.distinct) h.filled []
  refine ⟨a, ?_⟩
  show run (h5Loop keys 0 vecs).1 (some []) = _
  rw [b]
  simp only [List.drop_zero, List.nil_append, Option.some.injEq]
  have := h.enough
  conv_rhs => rw [List.zip_eq_zip_take_min]
  rw [min_eq_right this, List.take_length]

/-- **C178** (reading). Looking up the `i`-th key gives the `i`-th vector. -/
theorem c178_lookup {keys : List String} {vecs : List (List ℚ)} (h : Proper keys vecs) (f : Option File) (i : Nat) (hi : i < vecs.length) :
    ∃ l, run (writeH5 0 keys vecs).1 f = some l ∧ l.lookup (keys[i]'(lt_of_lt_of_le hi h.enough)) = some vecs[i] := by
  refine ⟨_, (c178_contents h f).2, ?_⟩
  obtain ⟨h1, h2, h3⟩ := h
  clear f
  induction vecs generalizing keys i with
  | nil => exact absurd hi (by simp)
  | cons v vs ih =>
    cases keys with
    | nil => simp at h1
    | cons k ks =>
      simp only [List.length_cons, List.take_succ_cons, List.nodup_cons] at h1 h2
      rw [List.zip_cons_cons, List.lookup_cons]
      cases i with
      | zero => simp
      | succ i =>
        simp only [List.length_cons] at hi
        have ne : ((ks[i]'(by omega)) == k) = false := by
          rw [beq_eq_false_iff_ne]
          intro e
          exact h2.1 (e ▸ List.mem_take_iff_getElem.2 ⟨i, by omega, rfl⟩)
        simp only [List.getElem_cons_succ, ne]
        exact ih i (by omega) (by omega) h2.2 fun v hv => h3 v (by simp [hv])

/-- **C178** (other processes). All MPI processes but the first leave the file alone. -/
theorem c178_other_ranks {rank : Nat} (hr : rank ≠ 0) (keys : List String) (vecs : List (List ℚ)) (f : Option File) :
    run (writeH5 rank keys vecs).1 f = f ∧ (writeH5 rank keys vecs).2 = none := by
  simp [writeH5, hr, run]

theorem loop_none (keys : List String) (vs : List (List ℚ)) (i : Nat) (hi : (keys.take i).Nodup) (h : (h5Loop keys i vs).2 = none) :
    (vs = [] ∨ i + vs.length ≤ keys.length) ∧ (keys.take (i + vs.length)).Nodup ∧ ∀ v ∈ vs, v ≠ [] := by
  induction vs generalizing i with
  | nil => exact ⟨Or.inl rfl, hi, by simp⟩
  | cons v vs ih =>
    simp only [h5Loop] at h
    split at h
    · cases h
    · rename_i k hk
      obtain ⟨il, ik⟩ := List.getElem?_eq_some_iff.1 hk
      split at h
      · cases h
      · rename_i nm
        split at h
        · cases h
        · rename_i hv
          have d : (keys.take (i + 1)).Nodup := by
            have t : keys.take (i + 1) = keys.take i ++ [k] := by simp [List.take_add_one, hk]
            rw [t, List.nodup_append]
            refine ⟨hi, by simp, fun a ha b hb e => ?_⟩
            rw [List.mem_singleton.1 hb] at e
            exact nm (e ▸ ha)
          obtain ⟨a, b, c⟩ := ih (i + 1) d h
          refine ⟨Or.inr ?_, ?_, ?_⟩
          · rcases a with rfl | a
            · simp; omega
            · simp only [List.length_cons]; omega
          · simp only [List.length_cons]
            rwa [show i + (vs.length + 1) = i + 1 + vs.length by omega]
          · intro x hx
            rcases List.mem_cons.1 hx with rfl | hx
            · exact hv
            · exact c x hx

/-- **C178** (success). The export succeeds only then. -/
theorem c178_success_iff (keys : List String) (vecs : List (List ℚ)) : (writeH5 0 keys vecs).2 = none ↔ Proper keys vecs := by
  constructor
  · intro h
    obtain ⟨a, b, c⟩ := loop_none keys vecs 0 (by simp) h
    refine ⟨?_, by simpa using b, c⟩
    rcases a with rfl | a
    · simp
    · simpa using a
  · exact fun h => (c178_contents h none).1

/-- **C178** is false without these conditions: with fewer keys than vectors, the export reads beyond the list of keys, and
with an empty vector it takes the address of an entry that is not there. -/
theorem c178_short_keys_refuted (v : List ℚ) (hv : v ≠ []) (w : List ℚ) (k : String) :
    (writeH5 0 [k] [v, w]).2 = some .undefined ∧ (writeH5 0 [k] [[]]).2 = some .undefined := by
  simp [writeH5, h5Loop, hv]

/-- **C178** (crash). An interrupted export does not leave the old contents: as soon as the file has been opened, they are gone, whatever
they were, and no new data set is there yet. -/
theorem c178_crash_refuted (keys : List String) (vecs : List (List ℚ)) (old : File) : after 1 (writeH5 0 keys vecs).1 (some old) = some [] := by
  simp [after, writeH5, Step.apply]

/-- Every interruption of the loop leaves some of the first vectors under their keys, and at most one data set full of zeros after
them. -/
theorem loop_after (keys : List String) (vs : List (List ℚ)) (i n : Nat) (l : File) (h1 : i + vs.length ≤ keys.length) (h2 : (keys.take (i + vs.length)).Nodup)
    (h3 : ∀ v ∈ vs, v ≠ []) : ∃ m, m ≤ vs.length ∧ (after n (h5Loop keys i vs).1 (some l) = some (l ++ (((keys.drop i).zip vs).take m)) ∨
      ∃ k v, (keys.drop i)[m]? = some k ∧ vs[m]? = some v ∧
        after n (h5Loop keys i vs).1 (some l) = some (l ++ (((keys.drop i).zip vs).take m) ++ [(k, List.replicate v.length 0)])) := by
  induction vs generalizing i n l with
  | nil => exact ⟨0, le_rfl, Or.inl (by simp [after, h5Loop])⟩
  | cons v vs ih =>
    simp only [List.length_cons] at h1 h2
    have hi : i < keys.length := by omega
    have e : keys[i]? = some keys[i] := List.getElem?_eq_getElem hi
    have nm : keys[i] ∉ keys.take i := by
      have t : keys.take (i + 1) = keys.take i ++ [keys[i]] := by simp
      have d : (keys.take (i + 1)).Nodup := h2.sublist (List.take_sublist_take_left (by omega))
      rw [t, List.nodup_append] at d
      intro hm
      exact d.2.2 _ hm _ (by simp) rfl
    have hv : v ≠ [] := h3 v (by simp)
    have dr : keys.drop i = keys[i] :: keys.drop (i + 1) := List.drop_eq_getElem_cons hi
    simp only [h5Loop, e, if_neg nm, if_neg hv]
    match n with
    | 0 => exact ⟨0, by omega, Or.inl (by simp [after])⟩
    | 1 => exact ⟨0, by omega, Or.inr ⟨keys[i], v, by rw [dr]; rfl, rfl, by simp [after, Step.apply]⟩⟩
    | n + 2 =>
      obtain ⟨m, hm, a⟩ := ih (i + 1) n (l ++ [(keys[i], v)]) (by omega) (by rwa [show i + 1 + vs.length = i + (vs.length + 1) by omega]) fun v hv => h3 v (by simp [hv])
      have s : after (n + 2) (Step.create keys[i] v.length :: Step.fill v :: (h5Loop keys (i + 1) vs).1) (some l) =
          after n (h5Loop keys (i + 1) vs).1 (some (l ++ [(keys[i], v)])) := by
        simp [after, Step.apply]
      refine ⟨m + 1, by simp only [List.length_cons]; omega, ?_⟩
      rw [s]
      rcases a with a | ⟨k, w, b1, b2, a⟩
      · refine Or.inl ?_
        rw [a, dr, List.zip_cons_cons, List.take_succ_cons, List.append_assoc, List.singleton_append]
      · refine Or.inr ⟨k, w, by rw [dr]; exact b1, b2, ?_⟩
        rw [a, dr, List.zip_cons_cons, List.take_succ_cons, List.append_assoc l, List.singleton_append]

/-- **C178** (crash), what holds: whenever a proper export is interrupted after the file has been opened, the file contains some of the
first vectors under their keys, complete, and at most one further data set, full of zeros. -/
theorem c178_crash_partial {keys : List String} {vecs : List (List ℚ)} (h : Proper keys vecs) (f : Option File) (n : Nat) :
    ∃ m, m ≤ vecs.length ∧ (after (n + 1) (writeH5 0 keys vecs).1 f = some ((keys.zip vecs).take m) ∨ ∃ k v, keys[m]? = some k ∧ vecs[m]? = some v ∧
      after (n + 1) (writeH5 0 keys vecs).1 f = some ((keys.zip vecs).take m ++ [(k, List.replicate v.length 0)])) := by
  obtain ⟨m, hm, a⟩ := loop_after keys vecs 0 n [] (by simpa using h.enough) (by simpa using h.distinct) h.filled
  have s : after (n + 1) (writeH5 0 keys vecs).1 f = after n (h5Loop keys 0 vecs).1 (some []) := by
    simp [after, writeH5, Step.apply]
  refine ⟨m, hm, ?_⟩
  rw [s]
  simpa using a

/-- **C178** (checks of the parquet equations). After `m` ≥ 1 iterations that were not interrupted the file contains the scales and, for each
norm, the values of these iterations followed by zeros. -/
theorem c178_checks {keys : List String} {scales : List ℚ} {norms : List (Nat → ℚ)} (hk : norms.length < keys.length) (hn : keys.Nodup) (hs : scales ≠ [])
    (f : Option File) (m : Nat) : run (checks keys scales norms (m + 1)) f =
      some (keys.zip (scales :: norms.map fun g => (List.range scales.length).map fun j => if j < m + 1 then g j else 0)) := by
  have pr : Proper keys (scales :: filled scales.length norms m) := by
    refine ⟨by simp [filled]; omega, hn.sublist (List.take_sublist _ _), fun v hv => ?_⟩
    rcases List.mem_cons.1 hv with rfl | hv
    · exact hs
    · obtain ⟨g, -, rfl⟩ := List.mem_map.1 hv
      simpa using hs
  rw [checks, run_append, (c178_contents pr _).2]
  simp only [filled, Nat.lt_succ_iff]

/-- **C178** (checks, crash). If the next iteration is interrupted while it writes, the norms of all earlier iterations can be lost. -/
theorem c178_checks_crash_refuted (keys : List String) (scales : List ℚ) (norms : List (Nat → ℚ)) (m : Nat) (f : Option File) :
    ∃ n ≤ (checks keys scales norms (m + 1)).length, (checks keys scales norms m).length < n ∧ after n (checks keys scales norms (m + 1)) f = some [] := by
  refine ⟨(checks keys scales norms m).length + 1, ?_, by omega, ?_⟩
  · simp [checks, writeH5]
  · simp only [checks, after, List.take_append, List.foldl_append]
    simp [writeH5, Step.apply, List.take_of_length_le]

/-- The call for one norm with two scales. -/
example : run (checks ["Lambdas", "norm"] [10, 5] [fun j => j + 1] 1) none = some [("Lambdas", [10, 5]), ("norm", [1, 0])] := by
  decide +kernel

example : Proper ["Lambdas", "sum_rule"] [[1, 2], [3]] := ⟨by decide, by decide, by decide⟩

/-! ### C179: export as text -/

/-- Rounding to the nearest integer, ties to even. -/
def toEven (y : ℚ) : Int := if y - ⌊y⌋ = 1 / 2 then (if 2 ∣ ⌊y⌋ then ⌊y⌋ else ⌊y⌋ + 1) else round y

theorem toEven_near (y : ℚ) : |(toEven y : ℚ) - y| ≤ 1 / 2 := by
  unfold toEven
  split
  · rename_i h
    have e : (⌊y⌋ : ℚ) = y - 1 / 2 := by linarith
    split
    · rw [e, abs_le]; constructor <;> linarith
    · push_cast; rw [e, abs_le]; constructor <;> linarith
  · rw [abs_sub_comm]; exact abs_sub_round y

theorem toEven_int (n : Int) : toEven n = n := by
  unfold toEven
  rw [Int.floor_intCast, sub_self, if_neg (by norm_num), round_intCast]

/-- **C179** (accuracy). A number read back from the text differs from the one written by at most 5 parts in a million. -/
theorem c179_accuracy_partial (x : ℚ) : |sixDigits x - x| ≤ 5 / 10 ^ 6 * |x| := by
  by_cases hx : x = 0
  · simp [sixDigits, hx]
  · have hx' : 0 < |x| := abs_pos.2 hx
    set e := Int.log 10 |x| with he
    set s : ℚ := (10 : ℚ) ^ (5 - e) with hs
    have s0 : 0 < s := zpow_pos (by norm_num) _
    have r : sixDigits x = (toEven (x * s) : ℚ) / s := by
      simp only [sixDigits, if_neg hx]; rfl
    have lo : (10 : ℚ) ^ e ≤ |x| := by
      have := Int.zpow_log_le_self (b := 10) (r := |x|) (by norm_num) hx'
      simpa using this
    have k : 10 ^ 5 ≤ |x| * s := by
      have : (10 : ℚ) ^ e * s = 10 ^ 5 := by
        rw [hs, ← zpow_add₀ (by norm_num)]
        rw [show e + (5 - e) = (5 : ℤ) by ring]; norm_num
      calc (10 : ℚ) ^ 5 = 10 ^ e * s := this.symm
        _ ≤ |x| * s := by gcongr
    have d : sixDigits x - x = ((toEven (x * s) : ℚ) - x * s) / s := by rw [r]; field_simp
    rw [d, abs_div, abs_of_pos s0, div_le_iff₀ s0]
    refine (toEven_near _).trans ?_
    have : 5 / 10 ^ 6 * |x| * s = 5 / 10 ^ 6 * (|x| * s) := by ring
    rw [this]
    linarith

/-- **C179** (exact numbers). Numbers with at most six significant digits are read back as they were written. -/
theorem c179_exact_partial (n : Int) (hn : |n| < 10 ^ 6) (k : Int) : sixDigits ((n : ℚ) * 10 ^ k) = n * 10 ^ k := by
  set x := (n : ℚ) * 10 ^ k with hx
  by_cases h0 : x = 0
  · simp [sixDigits, h0]
  · have hx' : 0 < |x| := abs_pos.2 h0
    set e := Int.log 10 |x| with he
    set s : ℚ := (10 : ℚ) ^ (5 - e) with hs
    have s0 : 0 < s := zpow_pos (by norm_num) _
    have r : sixDigits x = (toEven (x * s) : ℚ) / s := by
      simp only [sixDigits, if_neg h0]; rfl
    have up : |x| < (10 : ℚ) ^ (k + 6) := by
      have t0 : (0 : ℚ) < 10 ^ k := zpow_pos (by norm_num) _
      rw [hx, abs_mul, abs_of_pos t0, add_comm, zpow_add₀ (by norm_num)]
      have : (|(n : ℚ)|) < 10 ^ (6 : ℤ) := by
        rw [← Int.cast_abs]; norm_cast
      gcongr
    have ek : e < k + 6 := by
      have lo : (10 : ℚ) ^ e ≤ |x| := by
        have := Int.zpow_log_le_self (b := 10) (r := |x|) (by norm_num) hx'
        simpa using this
      exact (zpow_lt_zpow_iff_right₀ (by norm_num : (1 : ℚ) < 10)).1 (lo.trans_lt up)
    obtain ⟨j, hj⟩ : ∃ j : ℕ, k + (5 - e) = j := ⟨(k + (5 - e)).toNat, by omega⟩
    have int : x * s = ((n * 10 ^ j : Int) : ℚ) := by
      rw [hx, hs, mul_assoc, ← zpow_add₀ (by norm_num), hj]
      push_cast
      rw [zpow_natCast]
    rw [r, int, toEven_int, ← int]
    field_simp

/-- **C179** (rows). On the first process, if the file can be opened, it then has one line for every vector with its numbers in order,
each as accurate as stated. -/
theorem c179_rows (vecs : List (List ℚ)) (f : Option Text) : ∃ t, writeDat 0 true vecs f = some t ∧ t.length = vecs.length ∧
    ∀ i (h : i < vecs.length) (h' : i < t.length), t[i].length = vecs[i].length ∧ ∀ j (g : j < vecs[i].length) (g' : j < t[i].length), |t[i][j] - vecs[i][j]| ≤ 5 / 10 ^ 6 * |vecs[i][j]| := by
  refine ⟨_, rfl, by simp, fun i h h' => ⟨by simp, fun j g g' => ?_⟩⟩
  simp only [List.getElem_map]
  exact c179_accuracy_partial _

/-- **C179** (other processes). On all processes but the first the file stays as it is. -/
theorem c179_other_ranks (rank : Nat) (h : rank ≠ 0) (canOpen : Bool) (vecs : List (List ℚ)) (f : Option Text) : writeDat rank canOpen vecs f = f := by
  simp [writeDat, h]

/-- **C179** is false for all numbers: what is read back is not what was written, and different numbers become equal. -/
theorem c179_exact_refuted : sixDigits (1 + 1 / 10 ^ 7) = 1 ∧ sixDigits 1 = 1 := by
  have l1 : Int.log 10 |(1 + 1 / 10 ^ 7 : ℚ)| = 0 := by decide +kernel
  have l2 : Int.log 10 |(1 : ℚ)| = 0 := by decide +kernel
  constructor
  · have r : sixDigits (1 + 1 / 10 ^ 7) = (toEven ((1 + 1 / 10 ^ 7) * (10 : ℚ) ^ (5 - Int.log 10 |(1 + 1 / 10 ^ 7 : ℚ)|)) : ℚ) / (10 : ℚ) ^ (5 - Int.log 10 |(1 + 1 / 10 ^ 7 : ℚ)|) := by
      simp only [sixDigits, if_neg (show (1 + 1 / 10 ^ 7 : ℚ) ≠ 0 by norm_num)]; rfl
    have t : toEven ((1 + 1 / 10 ^ 7) * (10 : ℚ) ^ (5 : ℕ)) = 10 ^ 5 := by decide +kernel
    rw [r, l1, sub_zero, show (10 : ℚ) ^ (5 : ℤ) = (10 : ℚ) ^ (5 : ℕ) by norm_cast, t]
    norm_num
  · simpa using c179_exact_partial 1 (by norm_num) 0

/-- **C179** (failure). If the file cannot be opened, nothing is written and nobody is told. -/
theorem c179_silent_refuted (vecs : List (List ℚ)) (f : Option Text) : writeDat 0 false vecs f = f := by
  simp [writeDat]

/-! ### C180: names and compile-time checks -/

/-- **C180** (classes). The names printed for the vertex classes differ, also from the one of the self-energy, -/
theorem c180_classes_partial (k k' : KClass) (h : k ≠ .k3sbe) (h' : k' ≠ .k3sbe) (e : k.print = k'.print) : k = k' := by
  cases k <;> cases k' <;> first | rfl | exact absurd rfl h | exact absurd rfl h' | exact absurd e (by decide +kernel)

/-- **C180** (names). The names are those of the classes, -/
theorem c180_names_partial : KClass.print .k1 = "K1" ∧ KClass.print .k2 = "K2" ∧ KClass.print .k2b = "K2'" ∧ KClass.print .k3 = "K3" ∧
    KClass.print .selfenergy = "selfenergy" := by decide +kernel

/-- but the remainder of the single-boson-exchange decomposition is printed as self-energy. -/
theorem c180_classes_refuted : KClass.print .k3sbe = KClass.print .selfenergy := rfl

/-- **C180** (types). The names of the vertex types differ, and a value that is none of them aborts the program. -/
theorem c180_types (n m : Int) (s : String) (h : typeName n = .ok s) (h' : typeName m = .ok s) : n = m := by
  unfold typeName at h h'
  split_ifs at h h' <;> first | omega | (exfalso; injection h with h; injection h' with h'; rw [← h'] at h; exact absurd h (by decide +kernel))

theorem c180_types_range (n : Int) : (∃ s, typeName n = .ok s) ↔ 0 ≤ n ∧ n ≤ 3 := by
  unfold typeName
  split_ifs <;> simp <;> omega

/-- **C180** (packs). The comparison of the two shifted lists of booleans holds exactly if all of them are true, for any number of them. -/
theorem c180_all_true (bs : List Bool) : allTrue bs = true ↔ ∀ b ∈ bs, b = true := by
  unfold allTrue
  rw [beq_iff_eq]
  induction bs with
  | nil => simp
  | cons b bs ih =>
    rw [List.cons_append, List.cons.injEq]
    constructor
    · rintro ⟨rfl, h⟩
      exact fun x hx => (List.mem_cons.1 hx).elim id (ih.1 h x)
    · intro h
      have hb := h b (by simp)
      subst hb
      exact ⟨rfl, ih.2 fun x hx => h x (by simp [hx])⟩

example : allTrue [true, false, true] = false := by decide

end Verif.Export
