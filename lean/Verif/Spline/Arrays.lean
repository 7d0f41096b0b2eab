import Verif.Spline.Lemmas
import Verif.Index.Props

namespace Verif.Spline
open Verif Verif.Index

variable {K W : Type} [Field K] [AddCommGroup W] [Module K W]

theorem fill_none {κ R : Type} (keys : List κ) (key : κ → Option Nat) (val : κ → R) (r : Nat)
    (h : ∀ q ∈ keys, key q ≠ some r) : fill keys key val r = none := by
  unfold fill
  suffices H : ∀ (l : List κ) (t : Nat → Option R), (∀ q ∈ l, key q ≠ some r) →
      l.foldl (fun t q => match key q with
        | some r => fun s => if s = r then some (val q) else t s
        | none => t) t r = t r from H keys _ h
  intro l
  induction l with
  | nil => intro t _; rfl
  | cons q l ih =>
    intro t hl
    rw [List.foldl_cons, ih _ fun q' hq' => hl q' (List.mem_cons_of_mem _ hq')]
    have := hl q (List.mem_cons_self ..)
    rcases e : key q with _ | r'
    · rfl
    · show (if r = r' then _ else _) = _
      rw [if_neg]
      rintro rfl
      exact this e

theorem fill_some {κ R : Type} (keys : List κ) (key : κ → Option Nat) (val : κ → R) (q : κ) (r : Nat)
    (hq : q ∈ keys) (hr : key q = some r) (hu : ∀ q' ∈ keys, key q' = some r → q' = q) :
    fill keys key val r = some (val q) := by
  unfold fill
  suffices H : ∀ (l : List κ) (t : Nat → Option R), (∀ q' ∈ l, key q' = some r → q' = q) →
      (q ∈ l ∨ t r = some (val q)) →
      l.foldl (fun t q => match key q with
        | some r => fun s => if s = r then some (val q) else t s
        | none => t) t r = some (val q) from H keys _ hu (.inl hq)
  intro l
  induction l with
  | nil => intro t _ h; simpa using h
  | cons q' l ih =>
    intro t hl h
    rw [List.foldl_cons]
    refine ih _ (fun p hp => hl p (List.mem_cons_of_mem _ hp)) ?_
    by_cases e : key q' = some r
    · obtain rfl := hl q' (List.mem_cons_self ..) e
      right; rw [e]; simp
    · rcases h with h | h
      · rcases List.mem_cons.1 h with rfl | h
        · exact absurd hr e
        · exact .inl h
      · right
        rcases e' : key q' with _ | r'
        · exact h
        · show (if r = r' then _ else _) = _
          rw [if_neg, h]
          rintro rfl; exact e e'

theorem rowMajor_append {is ds : List Nat} (h : is.length = ds.length) (js es : List Nat) :
    rowMajor (is ++ js) (ds ++ es) = rowMajor is ds * es.prod + rowMajor js es := by
  induction is generalizing ds with
  | nil => cases ds with
    | nil => simp [rowMajor]
    | cons => simp at h
  | cons i is ih => cases ds with
    | nil => simp at h
    | cons d ds =>
      simp only [List.length_cons, Nat.add_right_cancel_iff] at h
      simp only [List.cons_append, rowMajor, ih h, List.prod_append]
      ring

theorem cyc_mid (A X B : List Nat) (k : Nat) (hk : k = A.length + X.length) :
    cyc (A ++ X ++ B) k = (B ++ A) ++ X := by
  subst hk
  unfold cyc
  rw [List.drop_left' (by simp), List.take_left' (by simp), List.append_assoc]

theorem pos_mid {A J B DA X DB : List Nat} (hA : InRange A DA) (hJ : InRange J X) (hB : InRange B DB) (k : Nat)
    (hk : k + 1 = DA.length + X.length) :
    rotateFlatIndex (rowMajor (B ++ A) (DB ++ DA) * X.prod + rowMajor J X) (DA ++ X ++ DB) k
      = some (rowMajor (A ++ J ++ B) (DA ++ X ++ DB)) := by
  have hr : InRange (A ++ J ++ B) (DA ++ X ++ DB) := List.rel_append (List.rel_append hA hJ) hB
  have := rotateFlatIndex_cyc hr k (by simp; omega)
  rwa [cyc_mid DA X DB _ hk, cyc_mid A J B _ (by rw [hA.length_eq, hJ.length_eq]; exact hk),
    rowMajor_append (by simp [hA.length_eq, hB.length_eq])] at this

theorem pos_unique {A J B DA X DB : List Nat} (hA : InRange A DA) (hJ : InRange J X) (hB : InRange B DB) (k : Nat)
    (hk : k + 1 = DA.length + X.length) (i r : Nat) (hi : i < DB.prod * DA.prod) (hr : r < X.prod)
    (h : rotateFlatIndex (i * X.prod + r) (DA ++ X ++ DB) k = some (rowMajor (A ++ J ++ B) (DA ++ X ++ DB))) :
    i = rowMajor (B ++ A) (DB ++ DA) ∧ r = rowMajor J X := by
  have hkl : k < (DA ++ X ++ DB).length := by simp; omega
  have hJ' := rowMajor_lt hJ
  have hI := rowMajor_lt (show InRange (B ++ A) (DB ++ DA) from List.rel_append hB hA)
  rw [List.prod_append] at hI
  have hn : numElems (DA ++ X ++ DB) = DB.prod * DA.prod * X.prod := by
    simp only [numElems, List.prod_append]; ring
  have bound : ∀ a b : Nat, a < DB.prod * DA.prod → b < X.prod → a * X.prod + b < numElems (DA ++ X ++ DB) := by
    intro a b ha hb
    rw [hn]
    calc a * X.prod + b < a * X.prod + X.prod := by omega
      _ = (a + 1) * X.prod := by ring
      _ ≤ _ := Nat.mul_le_mul_right _ ha
  have e := (c03_rotate_bijective _ k hkl).2.2 _ (bound i r hi hr) _ (bound _ _ hI hJ')
    (h.trans (pos_mid hA hJ hB k hk).symm)
  have hX : 0 < X.prod := by omega
  have e1 := congrArg (· / X.prod) e
  have e2 := congrArg (· % X.prod) e
  rw [Nat.mul_comm, Nat.mul_add_div hX, Nat.mul_comm _ X.prod, Nat.mul_add_div hX, Nat.div_eq_of_lt hr,
    Nat.div_eq_of_lt hJ'] at e1
  rw [Nat.mul_comm, Nat.mul_add_mod, Nat.mul_comm _ X.prod, Nat.mul_add_mod, Nat.mod_eq_of_lt hr,
    Nat.mod_eq_of_lt hJ'] at e2
  omega

theorem prod_mid (DA X DB : List Nat) : (DA ++ X ++ DB).prod = DB.prod * DA.prod * X.prod := by
  simp only [List.prod_append]; ring

/-- The row of a cell in one dimension. -/
theorem table1_some {A B DA DB : List Nat} {nx j : Nat} (hA : InRange A DA) (hB : InRange B DB) (hj : j + 1 < nx)
    (x : Nat → K) (f b : Nat → W) :
    table1 (DA ++ [nx] ++ DB) DA.length (DA ++ [nx] ++ DB).prod nx x f b
        (rowMajor (A ++ [j] ++ B) (DA ++ [nx] ++ DB))
      = some (coeffs1 (x (j + 1) - x j) (fun k => f (rowMajor (A ++ [j + k] ++ B) (DA ++ [nx] ++ DB)))
          (fun k => b (rowMajor (A ++ [j + k] ++ B) (DA ++ [nx] ++ DB)))) := by
  have hI := rowMajor_lt (show InRange (B ++ A) (DB ++ DA) from List.rel_append hB hA)
  rw [List.prod_append] at hI
  have hP : ∀ j', j' < nx → rotateFlatIndex (rowMajor (B ++ A) (DB ++ DA) * nx + j') (DA ++ [nx] ++ DB) DA.length
      = some (rowMajor (A ++ [j'] ++ B) (DA ++ [nx] ++ DB)) := by
    intro j' h
    have := pos_mid (J := [j']) (X := [nx]) hA (by simpa [InRange] using h) hB DA.length (by simp)
    simpa [rowMajor] using this
  unfold table1
  refine (fill_some _ _ _ (rowMajor (B ++ A) (DB ++ DA), j) _ ?_ ?_ ?_).trans ?_
  · simp only [List.mem_flatMap, List.mem_range, List.mem_map, Prod.mk.injEq]
    refine ⟨_, ?_, j, by omega, rfl, rfl⟩
    rw [prod_mid, List.prod_singleton, Nat.mul_div_cancel _ (by omega)]
    exact hI
  · exact hP j (by omega)
  · rintro ⟨i', j'⟩ hq h
    simp only [List.mem_flatMap, List.mem_range, List.mem_map, Prod.mk.injEq] at hq
    obtain ⟨i, hi, j2, hj2, rfl, rfl⟩ := hq
    rw [prod_mid, List.prod_singleton, Nat.mul_div_cancel _ (by omega)] at hi
    have := pos_unique (J := [j]) (X := [nx]) hA (by simpa [InRange] using (by omega : j < nx)) hB DA.length (by simp)
      i j2 hi (by simp; omega) (by simpa using h)
    simp [rowMajor] at this
    rw [this.1, this.2]
  · have e : ∀ k : Fin 2, rotateFlatIndex (rowMajor (B ++ A) (DB ++ DA) * nx + (j + (k : Nat))) (DA ++ [nx] ++ DB) DA.length
        = some (rowMajor (A ++ [j + (k : Nat)] ++ B) (DA ++ [nx] ++ DB)) := fun k => hP _ (by omega)
    simp only [e, rdAt]

theorem table1_last {A B DA DB : List Nat} {nx : Nat} (hA : InRange A DA) (hB : InRange B DB) (hn : 0 < nx)
    (x : Nat → K) (f b : Nat → W) :
    table1 (DA ++ [nx] ++ DB) DA.length (DA ++ [nx] ++ DB).prod nx x f b
        (rowMajor (A ++ [nx - 1] ++ B) (DA ++ [nx] ++ DB)) = none := by
  unfold table1
  refine fill_none _ _ _ _ ?_
  rintro ⟨i', j'⟩ hq h
  simp only [List.mem_flatMap, List.mem_range, List.mem_map, Prod.mk.injEq] at hq
  obtain ⟨i, hi, j2, hj2, rfl, rfl⟩ := hq
  rw [prod_mid, List.prod_singleton, Nat.mul_div_cancel _ (by omega)] at hi
  have := pos_unique (J := [nx - 1]) (X := [nx]) hA (by simpa [InRange] using (by omega : 0 < nx)) hB DA.length (by simp)
    i j2 hi (by simp; omega) (by simpa using h)
  simp [rowMajor] at this
  omega

/-- The row of a cell in two dimensions. -/
theorem table2_some {A B DA DB : List Nat} {nx ny j k : Nat} (hA : InRange A DA) (hB : InRange B DB) (hj : j + 1 < nx)
    (hk : k + 1 < ny) (x y : Nat → K) (F : Fin 4 → Nat → W) :
    table2 (DA ++ [nx, ny] ++ DB) DA.length (DA ++ [nx, ny] ++ DB).prod nx ny x y F
        (rowMajor (A ++ [j, k] ++ B) (DA ++ [nx, ny] ++ DB))
      = some (coeffs2 (x (j + 1) - x j) (y (k + 1) - y k)
          (fun d c => F d (rowMajor (A ++ [j + c % 2, k + c / 2] ++ B) (DA ++ [nx, ny] ++ DB)))) := by
  have hI := rowMajor_lt (show InRange (B ++ A) (DB ++ DA) from List.rel_append hB hA)
  rw [List.prod_append] at hI
  have hlt : ∀ a b : Nat, a < nx → b < ny → a * ny + b < nx * ny := by
    intro a b ha hb
    calc a * ny + b < a * ny + ny := by omega
      _ = (a + 1) * ny := by ring
      _ ≤ _ := Nat.mul_le_mul_right _ ha
  have hdiv : (DA ++ [nx, ny] ++ DB).prod / nx / ny = DB.prod * DA.prod := by
    rw [prod_mid, Nat.div_div_eq_div_mul]
    simp only [List.prod_cons, List.prod_nil, Nat.mul_one]
    exact Nat.mul_div_cancel _ (Nat.mul_pos (by omega) (by omega))
  have hP : ∀ a b, a < nx → b < ny →
      rotateFlatIndex (rowMajor (B ++ A) (DB ++ DA) * nx * ny + a * ny + b) (DA ++ [nx, ny] ++ DB) (DA.length + 1)
      = some (rowMajor (A ++ [a, b] ++ B) (DA ++ [nx, ny] ++ DB)) := by
    intro a b ha hb
    have := pos_mid (J := [a, b]) (X := [nx, ny]) hA (by simp [InRange, ha, hb]) hB (DA.length + 1) (by simp)
    simpa [rowMajor, Nat.mul_assoc, Nat.add_assoc] using this
  unfold table2
  refine (fill_some _ _ _ (rowMajor (B ++ A) (DB ++ DA), j, k) _ ?_ ?_ ?_).trans ?_
  · simp only [List.mem_flatMap, List.mem_range, List.mem_map, Prod.mk.injEq]
    exact ⟨_, by rw [hdiv]; exact hI, j, by omega, k, by omega, rfl, rfl, rfl⟩
  · exact hP j k (by omega) (by omega)
  · rintro ⟨i', j', k'⟩ hq h
    simp only [List.mem_flatMap, List.mem_range, List.mem_map, Prod.mk.injEq] at hq
    obtain ⟨i, hi, j2, hj2, k2, hk2, rfl, rfl, rfl⟩ := hq
    rw [hdiv] at hi
    have := pos_unique (J := [j, k]) (X := [nx, ny]) hA
      (by simp [InRange, (by omega : j < nx), (by omega : k < ny)]) hB (DA.length + 1) (by simp)
      i (j2 * ny + k2) hi (by simpa using hlt j2 k2 (by omega) (by omega))
      (by simpa [Nat.mul_assoc, Nat.add_assoc] using h)
    simp [rowMajor] at this
    obtain ⟨h1, h2⟩ := this
    have hny : 0 < ny := by omega
    have e1 := congrArg (· / ny) h2
    have e2 := congrArg (· % ny) h2
    rw [Nat.mul_comm, Nat.mul_add_div hny, Nat.mul_comm j, Nat.mul_add_div hny, Nat.div_eq_of_lt (by omega),
      Nat.div_eq_of_lt (by omega)] at e1
    rw [Nat.mul_comm, Nat.mul_add_mod, Nat.mul_comm j, Nat.mul_add_mod, Nat.mod_eq_of_lt (by omega),
      Nat.mod_eq_of_lt (by omega)] at e2
    rw [h1, e2, show j2 = j by omega]
  · have e : ∀ c : Fin 4, rotateFlatIndex (rowMajor (B ++ A) (DB ++ DA) * nx * ny + (j + (c : Nat) % 2) * ny
          + (k + (c : Nat) / 2)) (DA ++ [nx, ny] ++ DB) (DA.length + 1)
        = some (rowMajor (A ++ [j + (c : Nat) % 2, k + (c : Nat) / 2] ++ B) (DA ++ [nx, ny] ++ DB)) :=
      fun c => hP _ _ (by omega) (by omega)
    simp only [e, rdAt]

/-- The row of a cell in three dimensions. -/
theorem table3_some {A B DA DB : List Nat} {nx ny nz j k l : Nat} (hA : InRange A DA) (hB : InRange B DB)
    (hj : j + 1 < nx) (hk : k + 1 < ny) (hl : l + 1 < nz) (x y z : Nat → K) (F : Fin 8 → Nat → W) :
    table3 (DA ++ [nx, ny, nz] ++ DB) DA.length (DA ++ [nx, ny, nz] ++ DB).prod nx ny nz x y z F
        (rowMajor (A ++ [j, k, l] ++ B) (DA ++ [nx, ny, nz] ++ DB))
      = some (coeffs3 (x (j + 1) - x j) (y (k + 1) - y k) (z (l + 1) - z l)
          (fun d c => F d (rowMajor (A ++ [j + c % 2, k + c / 2 % 2, l + c / 4] ++ B) (DA ++ [nx, ny, nz] ++ DB)))) := by
  have hI := rowMajor_lt (show InRange (B ++ A) (DB ++ DA) from List.rel_append hB hA)
  rw [List.prod_append] at hI
  have inX : ∀ a b c, a < nx → b < ny → c < nz → InRange [a, b, c] [nx, ny, nz] := by
    intro a b c ha hb hc; simp [InRange, ha, hb, hc]
  have hdiv : (DA ++ [nx, ny, nz] ++ DB).prod / nx / ny / nz = DB.prod * DA.prod := by
    rw [prod_mid, Nat.div_div_eq_div_mul, Nat.div_div_eq_div_mul]
    simp only [List.prod_cons, List.prod_nil, Nat.mul_one, ← Nat.mul_assoc]
    rw [Nat.mul_assoc _ nx ny, Nat.mul_assoc _ (nx * ny) nz]
    exact Nat.mul_div_cancel _ (Nat.mul_pos (Nat.mul_pos (by omega) (by omega)) (by omega))
  have assoc : ∀ i a b c, i * nx * ny * nz + a * ny * nz + b * nz + c
      = i * [nx, ny, nz].prod + rowMajor [a, b, c] [nx, ny, nz] := by
    intro i a b c
    simp only [rowMajor, List.prod_cons, List.prod_nil]
    ring
  have hP : ∀ a b c, a < nx → b < ny → c < nz →
      rotateFlatIndex (rowMajor (B ++ A) (DB ++ DA) * nx * ny * nz + a * ny * nz + b * nz + c)
        (DA ++ [nx, ny, nz] ++ DB) (DA.length + 2)
      = some (rowMajor (A ++ [a, b, c] ++ B) (DA ++ [nx, ny, nz] ++ DB)) := by
    intro a b c ha hb hc
    rw [assoc]
    exact pos_mid hA (inX a b c ha hb hc) hB (DA.length + 2) (by simp)
  unfold table3
  refine (fill_some _ _ _ (rowMajor (B ++ A) (DB ++ DA), j, k, l) _ ?_ ?_ ?_).trans ?_
  · simp only [List.mem_flatMap, List.mem_range, List.mem_map, Prod.mk.injEq]
    exact ⟨_, by rw [hdiv]; exact hI, j, by omega, k, by omega, l, by omega, rfl, rfl, rfl, rfl⟩
  · exact hP j k l (by omega) (by omega) (by omega)
  · rintro ⟨i', j', k', l'⟩ hq h
    simp only [List.mem_flatMap, List.mem_range, List.mem_map, Prod.mk.injEq] at hq
    obtain ⟨i, hi, j2, hj2, k2, hk2, l2, hl2, rfl, rfl, rfl, rfl⟩ := hq
    rw [hdiv] at hi
    have in2 := inX j2 k2 l2 (by omega) (by omega) (by omega)
    have in1 := inX j k l (by omega) (by omega) (by omega)
    simp only [assoc] at h
    obtain ⟨h1, h2⟩ := pos_unique hA in1 hB (DA.length + 2) (by simp) i _ hi (rowMajor_lt in2) h
    have h3 := getMultIndex_rowMajor in2 (by simp)
    rw [h2, getMultIndex_rowMajor in1 (by simp)] at h3
    simp only [Option.some.injEq, List.cons.injEq, and_true] at h3
    rw [h1, ← h3.1, ← h3.2.1, ← h3.2.2]
  · have e : ∀ c : Fin 8, rotateFlatIndex (rowMajor (B ++ A) (DB ++ DA) * nx * ny * nz + (j + (c : Nat) % 2) * ny * nz
          + (k + (c : Nat) / 2 % 2) * nz + (l + (c : Nat) / 4)) (DA ++ [nx, ny, nz] ++ DB) (DA.length + 2)
        = some (rowMajor (A ++ [j + (c : Nat) % 2, k + (c : Nat) / 2 % 2, l + (c : Nat) / 4] ++ B)
          (DA ++ [nx, ny, nz] ++ DB)) :=
      fun c => hP _ _ _ (by omega) (by omega) (by omega)
    simp only [e, rdAt]

theorem rowAt_some {R : Type} (table : Nat → Option R) (indx dims : List Nat) (c : R) (h : InRange indx dims)
    (h2 : 2 ≤ dims.length) (ht : table (rowMajor indx dims) = some c) : rowAt table indx dims = .ok c := by
  unfold rowAt
  rw [getFlatIndex_eq _ _ h.length_eq h2]
  simp only [ht]

end Verif.Spline
