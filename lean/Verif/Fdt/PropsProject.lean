import Verif.Fdt.Project
import Verif.Fdt.PropsChecks

/-! # C186: the comparison with the fluctuation-dissipation relations as a whole, and its files -/
namespace Verif.Fdt
open Freqs (Ch)

/-- The state made of the recomputed components. -/
noncomputable def projectSt (g : Shape) (T : ℝ) (s : St) : St := ⟨selfFDT g.nv g.nIn g.freq T s.se, project g T s.vert⟩

theorem cellK1_twice (ch : Ch) (T w : ℝ) (K : Nat → ℂ) : cellK1 ch T w (cellK1 ch T w K) = cellK1 ch T w K := by
  funext iK
  by_cases h : |w| > T * 25 ∧ iK = slotK1 ch
  · rw [cellK1, if_pos h, cellK1, if_pos h, valueK1, valueK1]
    have : cellK1 ch T w K 1 = K 1 := by
      rw [cellK1, if_neg]
      rintro ⟨-, h⟩
      cases ch <;> simp [slotK1] at h
    rw [this]
  · rw [cellK1, if_neg h]

theorem cellK2_twice (ch : Ch) (T w v : ℝ) (K : Nat → ℂ) : cellK2 ch T w v (cellK2 ch T w v K) = cellK2 ch T w v K := by
  funext iK
  by_cases h : |w| > T
  · cases ch <;> · simp only [cellK2, if_pos h]; norm_num
                   split_ifs <;> rfl
  · simp only [cellK2, if_neg h]

theorem cellK3_twice (ch : Ch) (T w v vp : ℝ) (K : Nat → ℂ) : cellK3 ch T w v vp (cellK3 ch T w v vp K) = cellK3 ch T w v vp K := by
  funext iK
  simp only [cellK3]
  norm_num
  split_ifs <;> rfl

/-- **C186** (projection). The recomputed state obeys the relations: recomputing it again changes nothing. -/
theorem c186_projection (g : Shape) (T : ℝ) (s : St) : projectSt g T (projectSt g T s) = projectSt g T s := by
  have h0 : selfFDT g.nv g.nIn g.freq T (selfFDT g.nv g.nIn g.freq T s.se) = selfFDT g.nv g.nIn g.freq T s.se := by
    funext iK iv iin
    by_cases c : iK = 1 ∧ iv < g.nv ∧ iin < g.nIn
    · simp [selfFDT, c]
    · unfold selfFDT
      rw [if_neg c]
  unfold projectSt
  simp only [h0, St.mk.injEq, true_and]
  unfold project
  simp only [Vert.mk.injEq, and_true]
  refine ⟨?_, ?_, ?_⟩
  · funext c spin iw iK iin
    by_cases h : iw < g.n1 ∧ spin < g.nIn ∧ iin < g.nIn
    · have := congrFun (cellK1_twice c T (g.freq1 c iw) fun k => s.vert.k1 c spin iw k iin) iK
      simp only [computeK1, if_pos h]
      exact this
    · simp only [computeK1, if_neg h]
  · funext c
    by_cases hm : 1 < g.maxClass
    · simp only [if_pos hm]
      funext spin iw iv iK iin
      by_cases h : iw < g.n2.1 ∧ iv < g.n2.2 ∧ spin < g.nIn ∧ iin < g.nIn
      · have := congrFun (cellK2_twice c T (g.freq2 c iw iv).1 (g.freq2 c iw iv).2 fun k => s.vert.k2 c spin iw iv k iin) iK
        simp only [computeK2, if_pos h]
        exact this
      · simp only [computeK2, if_neg h]
    · simp only [if_neg hm]
  · funext c
    by_cases hm : 2 < g.maxClass
    · simp only [if_pos hm]
      funext spin iw iv ivp iK iin
      by_cases h : iw < g.n3.1 ∧ iv < g.n3.2.1 ∧ ivp < g.n3.2.2 ∧ spin < g.nSpin ∧ iin < g.nIn
      · have := congrFun (cellK3_twice c T (g.freq3 c iw iv ivp).1 (g.freq3 c iw iv ivp).2.1 (g.freq3 c iw iv ivp).2.2
          fun k => s.vert.k3 c spin iw iv ivp k iin) iK
        simp only [computeK3, if_pos h]
        exact this
      · simp only [computeK3, if_neg h]
    · simp only [if_neg hm]

/-- A state in thermal equilibrium on its grid: every cell of every class and channel holds the components of a function in equilibrium with the leg structure of
its class, and the self-energy obeys the fluctuation-dissipation theorem. -/
structure Equilibrium (g : Shape) (T : ℝ) (s : St) : Prop where
  se : ∀ iv iin, iv < g.nv → iin < g.nIn →
    s.se 1 iv iin = ((Real.tanh (g.freq iv / (2 * T)) : ℝ) : ℂ) * (s.se 0 iv iin - (starRingEnd ℂ) (s.se 0 iv iin))
  k1 : ∀ c spin iw iin, iw < g.n1 → ∃ V v vp, LeftMerged c V ∧ RightMerged c V ∧ ThermalIn c T (g.freq1 c iw) v vp V ∧
    ∀ iK, s.vert.k1 c spin iw iK iin = component V iK
  k2 : ∀ c spin iw iv iin, iw < g.n2.1 → iv < g.n2.2 → ∃ V vp, RightMerged c V ∧ ThermalIn c T (g.freq2 c iw iv).1 (g.freq2 c iw iv).2 vp V ∧
    ∀ iK, s.vert.k2 c spin iw iv iK iin = component V iK
  k3 : ∀ c spin iw iv ivp iin, iw < g.n3.1 → iv < g.n3.2.1 → ivp < g.n3.2.2 → ∃ V,
    ThermalIn c T (g.freq3 c iw iv ivp).1 (g.freq3 c iw iv ivp).2.1 (g.freq3 c iw iv ivp).2.2 V ∧
    ∀ iK, s.vert.k3 c spin iw iv ivp iK iin = component V iK

/-- **C186** (equilibrium). A state in thermal equilibrium is recomputed to itself. -/
theorem c186_equilibrium {g : Shape} {T : ℝ} (hT : 0 < T) {s : St} (h : Equilibrium g T s) : projectSt g T s = s := by
  have e0 := ((c116_selfenergy g.nv g.nIn g.freq T s.se).1).2 h.se
  have e1 : ∀ c, computeK1 c g.n1 g.nIn (g.freq1 c) T (s.vert.k1 c) = s.vert.k1 c := fun c => c112_first_all c _ _ _ T hT _ (h.k1 c)
  have e2 : ∀ c, computeK2 c g.n2.1 g.n2.2 g.nIn (g.freq2 c) T (s.vert.k2 c) = s.vert.k2 c := fun c => c112_second_all c _ _ _ _ T hT _ (h.k2 c)
  have e3 : ∀ c, computeK3 c g.n3.1 g.n3.2.1 g.n3.2.2 g.nSpin g.nIn (g.freq3 c) T (s.vert.k3 c) = s.vert.k3 c :=
    fun c => c112_third_all c _ _ _ _ _ _ T _ (h.k3 c)
  unfold projectSt project
  rw [e0]
  simp only [e1, e2, e3, ite_self]

/-- **C186** (what is kept). The bare part and the mixed class, the retarded self-energy, and all components of the vertex other than those that the relations determine
are never changed. -/
theorem c186_kept (g : Shape) (T : ℝ) (s : St) : (projectSt g T s).vert.rest = s.vert.rest ∧
    (∀ iv iin, (projectSt g T s).se 0 iv iin = s.se 0 iv iin) ∧
    (∀ c spin iw iK iin, iK ≠ 3 → iK ≠ 5 → (projectSt g T s).vert.k1 c spin iw iK iin = s.vert.k1 c spin iw iK iin) ∧
    (∀ c spin iw iv iK iin, iK ∉ [0, 1, 2, 3, 5] → (projectSt g T s).vert.k2 c spin iw iv iK iin = s.vert.k2 c spin iw iv iK iin) ∧
    ∀ c spin iw iv ivp iK iin, iK ∉ [0, 1] → (projectSt g T s).vert.k3 c spin iw iv ivp iK iin = s.vert.k3 c spin iw iv ivp iK iin := by
  refine ⟨rfl, fun iv iin => by simp [projectSt, selfFDT], fun c spin iw iK iin h3 h5 => ?_, fun c spin iw iv iK iin h => ?_, fun c spin iw iv ivp iK iin h => ?_⟩
  · simp only [projectSt, project, computeK1, cellK1]
    have : iK ≠ slotK1 c := by cases c <;> simpa [slotK1]
    simp [this]
  · simp only [List.mem_cons, List.not_mem_nil, or_false, not_or] at h
    obtain ⟨h0, h1, h2, h3, h5⟩ := h
    simp only [projectSt, project]
    split
    · simp only [computeK2]
      split
      · cases c <;> simp [cellK2, h0, h1, h2, h3, h5]
      · rfl
    · rfl
  · simp only [List.mem_cons, List.not_mem_nil, or_false, not_or] at h
    obtain ⟨h0, h1⟩ := h
    simp only [projectSt, project]
    split
    · simp only [computeK3]
      split
      · simp [cellK3, h0, h1]
      · rfl
    · rfl

theorem names_ne (pre : String) : pre ++ "_FDTresult" ≠ pre ++ "_FDTdiff" := fun h => by
  have := congrArg String.toList h
  rw [String.toList_append, String.toList_append] at this
  exact absurd (List.append_cancel_left this) (by decide)

theorem okb (a : α) (f : α → Res β) : (Except.ok a >>= f) = f a := rfl

theorem compareState_eq (g : Shape) (T : ℝ) (s : St) (i : Nat) (pre : String) (n : Nat) (d : Disk St) :
    compareState true g T s i pre true n d = record d pre i n (projectSt g T s) ((projectSt g T s).sub s) := rfl

theorem flow_rest (g : Shape) (T : ℝ) (pre : String) (n : Nat) : ∀ (rest : List St) (i : Nat) (a b : List (Option St)) (d : Disk St),
    0 < i → a.length = i → b.length = i → d (pre ++ "_FDTresult") = some (a ++ List.replicate rest.length none) →
    d (pre ++ "_FDTdiff") = some (b ++ List.replicate rest.length none) →
    ∃ d', (rest.zipIdx i).foldlM (fun d x => compareState true g T x.1 x.2 pre true n d) d = .ok d' ∧
      d' (pre ++ "_FDTresult") = some (a ++ rest.map fun s => some (projectSt g T s)) ∧
      d' (pre ++ "_FDTdiff") = some (b ++ rest.map fun s => some ((projectSt g T s).sub s)) ∧
      ∀ m, m ≠ pre ++ "_FDTresult" → m ≠ pre ++ "_FDTdiff" → d' m = d m
  | [], i, a, b, d, _, _, _, h1, h2 => ⟨d, rfl, by simpa using h1, by simpa using h2, fun _ _ _ => rfl⟩
  | s :: rest, i, a, b, d, hi, ha, hb, h1, h2 => by
    have ne := names_ne pre
    rw [List.zipIdx_cons, List.foldlM_cons]
    have st : ∀ (l : List (Option St)) (x : Option St), l.length = i → (l ++ List.replicate (s :: rest).length none).set i x =
        (l ++ [x]) ++ List.replicate rest.length none := by
      intro l x hl
      rw [List.set_append_right _ _ (by omega), hl, Nat.sub_self, List.length_cons, List.replicate_succ, List.set_cons_zero, List.append_assoc]
      rfl
    have hs : compareState true g T s i pre true n d = .ok fun m =>
        if m = pre ++ "_FDTdiff" then some ((b ++ [some ((projectSt g T s).sub s)]) ++ List.replicate rest.length none)
        else if m = pre ++ "_FDTresult" then some ((a ++ [some (projectSt g T s)]) ++ List.replicate rest.length none) else d m := by
      rw [compareState_eq, record, if_neg (by omega)]
      simp only [append, h1, okb, if_neg ne.symm, h2]
      rw [st a _ ha, st b _ hb]
    simp only [hs, okb]
    obtain ⟨d', k1, k2, k3, k4⟩ := flow_rest g T pre n rest (i + 1) (a ++ [some (projectSt g T s)]) (b ++ [some ((projectSt g T s).sub s)])
      (fun m => if m = pre ++ "_FDTdiff" then some ((b ++ [some ((projectSt g T s).sub s)]) ++ List.replicate rest.length none)
        else if m = pre ++ "_FDTresult" then some ((a ++ [some (projectSt g T s)]) ++ List.replicate rest.length none) else d m)
      (by omega) (by simp [ha]) (by simp [hb]) (by rw [if_neg ne, if_pos rfl]) (by rw [if_pos rfl])
    refine ⟨d', k1, by rw [k2]; simp, by rw [k3]; simp, fun m m1 m2 => by rw [k4 m m1 m2]; simp [m1, m2]⟩

theorem St.add_sub (x y : St) : x.sub (x.sub y) = y := by
  obtain ⟨a, b, c, d, e⟩ := x
  obtain ⟨a', b', c', d', e'⟩ := y
  simp [St.sub, Vert.sub]

/-- **C186** (files of a flow). Whatever was on the disk, comparing a flow with at least one layer leaves one file with the recomputed states and one with
the differences, each with exactly the layers of the flow in their order; the state that was compared is the recomputed one minus the difference; and
no other file is touched. -/
theorem c186_files (g : Shape) (T : ℝ) (layers : List St) (hl : layers ≠ []) (dir name : String) (d : Disk St) :
    ∃ d' res diff, compareFlow true g T layers dir name true d = .ok d' ∧
      d' (dir ++ name ++ "_FDTresult") = some (res.map some) ∧ d' (dir ++ name ++ "_FDTdiff") = some (diff.map some) ∧
      res = layers.map (projectSt g T) ∧ List.zipWith St.sub res diff = layers ∧ diff.length = layers.length ∧
      ∀ m, m ≠ dir ++ name ++ "_FDTresult" → m ≠ dir ++ name ++ "_FDTdiff" → d' m = d m := by
  obtain ⟨s, rest, rfl⟩ := List.exists_cons_of_ne_nil hl
  have ne := names_ne (dir ++ name)
  unfold compareFlow
  rw [List.zipIdx_cons, List.foldlM_cons]
  generalize dir ++ name = pre at *
  have hs : compareState true g T s 0 pre true (s :: rest).length d = .ok fun m =>
      if m = pre ++ "_FDTdiff" then some ([some ((projectSt g T s).sub s)] ++ List.replicate rest.length none)
      else if m = pre ++ "_FDTresult" then some ([some (projectSt g T s)] ++ List.replicate rest.length none) else d m := by
    rw [compareState_eq, record, if_pos rfl]
    simp only [create, List.length_cons, Nat.add_one_ne_zero, if_false, okb, Nat.add_sub_cancel]
    rfl
  simp only [hs, okb]
  obtain ⟨d', k1, k2, k3, k4⟩ := flow_rest g T pre (s :: rest).length rest 1 [some (projectSt g T s)] [some ((projectSt g T s).sub s)]
    (fun m => if m = pre ++ "_FDTdiff" then some ([some ((projectSt g T s).sub s)] ++ List.replicate rest.length none)
      else if m = pre ++ "_FDTresult" then some ([some (projectSt g T s)] ++ List.replicate rest.length none) else d m)
    one_pos rfl rfl (by rw [if_neg ne, if_pos rfl]) (by rw [if_pos rfl])
  refine ⟨d', (s :: rest).map (projectSt g T), (s :: rest).map fun s => (projectSt g T s).sub s, k1, by rw [k2]; simp, by rw [k3]; simp, rfl, ?_, by simp,
    fun m m1 m2 => by rw [k4 m m1 m2]; simp [m1, m2]⟩
  rw [List.zipWith_map, List.zipWith_self]
  simp [St.add_sub]

/-- **C186** (asking only). Without the request to write, nothing is written. -/
theorem c186_silent (k : Bool) (g : Shape) (T : ℝ) (layers : List St) (dir name : String) (d : Disk St) :
    compareFlow k g T layers dir name false d = .ok d := by
  unfold compareFlow
  have key : ∀ (l : List (St × Nat)) d, l.foldlM (fun d x => compareState k g T x.1 x.2 (dir ++ name) false layers.length d) d = (.ok d : Res (Disk St)) := by
    intro l
    induction l with
    | nil => intro d; rfl
    | cons x l ih =>
      intro d
      rw [List.foldlM_cons]
      have : compareState k g T x.1 x.2 (dir ++ name) false layers.length d = .ok d := by cases k <;> rfl
      rw [this]; exact ih d
  exact key _ d

/-- One frequency, 30 temperatures, and a vertex that violates the relation there. -/
noncomputable def oneShape : Shape :=
  ⟨1, 1, 1, 1, fun _ => 0, 1, fun _ _ => 30, (0, 0), fun _ _ _ => (0, 0), (0, 0, 0), fun _ _ _ _ => (0, 0, 0)⟩

/-- The vertex: only a Keldysh component. -/
noncomputable def oneVert : Vert := ⟨fun _ _ _ iK _ => if iK = 3 then 1 else 0, 0, 0, 0⟩

/-- **C186** is false for the comparison of a vertex: the same file name then contains the difference with the opposite sign, so that the vertex that was compared
is not the recomputed one minus the difference but their sum. -/
theorem c186_sign_refuted :
    (∀ (g : Shape) (T : ℝ) (v : Vert) (pre : String) (d : Disk St), ∃ d' res diff, compareVertex true g T v 0 pre true 1 d = .ok (project g T v, d') ∧
      d' (pre ++ "_FDTresult") = some [some res] ∧ d' (pre ++ "_FDTdiff") = some [some diff] ∧ res.vert.add diff.vert = v) ∧
    ∃ (g : Shape) (T : ℝ) (v : Vert) (d d' : Disk St) (res diff : St), compareVertex true g T v 0 "x" true 1 d = .ok (project g T v, d') ∧
      d' "x_FDTresult" = some [some res] ∧ d' "x_FDTdiff" = some [some diff] ∧ res.vert.sub diff.vert ≠ v := by
  have all : ∀ (g : Shape) (T : ℝ) (v : Vert) (pre : String) (d : Disk St), compareVertex true g T v 0 pre true 1 d = .ok (project g T v, fun m =>
      if m = pre ++ "_FDTdiff" then some [some ⟨0, v.sub (project g T v)⟩] else if m = pre ++ "_FDTresult" then some [some ⟨0, project g T v⟩] else d m) :=
    fun g T v pre d => rfl
  refine ⟨fun g T v pre d => ⟨_, ⟨0, project g T v⟩, ⟨0, v.sub (project g T v)⟩, all g T v pre d, ?_, ?_, ?_⟩, ?_⟩
  · simp [names_ne pre]
  · simp
  · generalize project g T v = p
    obtain ⟨a, b, c, e⟩ := p
    obtain ⟨a', b', c', e'⟩ := v
    simp [Vert.add, Vert.sub]
  · refine ⟨oneShape, 1, oneVert, fun _ => none, _, ⟨0, project oneShape 1 oneVert⟩, ⟨0, oneVert.sub (project oneShape 1 oneVert)⟩, all _ _ _ _ _, ?_, ?_, ?_⟩
    · simp [show "x_FDTresult" = "x" ++ "_FDTresult" from rfl]
    · simp [show "x_FDTdiff" = "x" ++ "_FDTdiff" from rfl]
    · intro h
      have := congrFun (congrFun (congrFun (congrFun (congrFun (congrArg Vert.k1 h) .a) 0) 0) 3) 0
      simp [Vert.sub, project, computeK1, cellK1, valueK1, slotK1, oneShape, oneVert] at this
      norm_num [abs_of_pos] at this

/-- The recomputation does change a state that violates the relations. -/
example : projectSt oneShape 1 ⟨0, oneVert⟩ ≠ ⟨0, oneVert⟩ := fun h => by
  have := congrFun (congrFun (congrFun (congrFun (congrFun (congrArg (fun s => s.vert.k1) h) .a) 0) 0) 3) 0
  simp [projectSt, project, computeK1, cellK1, valueK1, slotK1, oneShape, oneVert] at this
  norm_num [abs_of_pos] at this

/-- **C186** (interrupted). Starting in the middle of a flow fails unless the files are there. -/
theorem c186_missing (g : Shape) (T : ℝ) (s : St) (i n : Nat) (hi : i ≠ 0) (pre : String) (d : Disk St) (h : d (pre ++ "_FDTresult") = none) :
    compareState true g T s i pre true n d = .error .exception := by
  rw [compareState_eq, record, if_neg hi]
  simp only [append, h]
  rfl

end Verif.Fdt
