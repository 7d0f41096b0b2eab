import Verif.Continue.Spec
import Verif.Hdf5.Success

namespace Verif.Continue

open Verif.Hdf5

variable {V : Type} {fill : V} {B : Build}

/-- `g` contains everything that `f` contains, with the same row `k`. -/
structure Extends (k : Nat) (f g : File V) : Prop where
  data : ∀ p d, f.ds p = some d → ∃ d', g.ds p = some d' ∧ d'.layers = d.layers ∧ d'.row k = d.row k
  grp : ∀ x, f.grp x = true → g.grp x = true
  attr : ∀ a, (f.attr a).isSome = true → (g.attr a).isSome = true

theorem Extends.refl (k : Nat) (f : File V) : Extends k f f :=
  ⟨fun _ d h => ⟨d, h, rfl, rfl⟩, fun _ h => h, fun _ h => h⟩

theorem Extends.trans {k : Nat} {f g h : File V} (a : Extends k f g) (b : Extends k g h) : Extends k f h := by
  refine ⟨fun p d hd => ?_, fun x hx => b.grp x (a.grp x hx), fun x hx => b.attr x (a.attr x hx)⟩
  obtain ⟨d', h1, h2, h3⟩ := a.data p d hd
  obtain ⟨d'', h4, h5, h6⟩ := b.data p d' h1
  exact ⟨d'', h4, h5.trans h2, h6.trans h3⟩

theorem Extends.step {k : Nat} {f g : File V} {o : Op V} (ho : ∀ p r, o ≠ .putRow p k r)
    (hs : step fill f o = .ok g) : Extends k f g := by
  refine ⟨fun p d hd => ?_, fun x hx => step_grp hs hx, fun x hx => step_attr_isSome hs hx⟩
  obtain ⟨d', h1, h2, _, h3⟩ := step_ds hs hd
  exact ⟨d', h1, h2, h3 k (fun r => ho p r)⟩

theorem Extends.run {k : Nat} {f : File V} {ops : List (Op V)} (ho : ∀ o ∈ ops, ∀ p r, o ≠ .putRow p k r) :
    Extends k f (run fill f ops).1 :=
  run_inv (fill := fill) (fun g => Extends k f g) ops
    (fun o hm _ _ hg hst => hg.trans (Extends.step (ho o hm) hst)) f (.refl k f)

theorem mapM_mono {α β : Type} {F G : α → Res β} {l : List α} {r : List β} (h : l.mapM F = .ok r)
    (hfg : ∀ a ∈ l, ∀ b, F a = .ok b → G a = .ok b) : l.mapM G = .ok r := by
  induction l generalizing r with
  | nil => exact h
  | cons a l ih =>
    rw [List.mapM_cons] at h ⊢
    cases ha : F a with
    | error e => simp [ha, bind, Except.bind] at h
    | ok b =>
      cases hl : l.mapM F with
      | error e => simp [ha, hl, bind, Except.bind] at h
      | ok bs =>
        rw [hfg a (by simp) b ha, ih hl (fun a' h' => hfg a' (List.mem_cons_of_mem _ h'))]
        simpa [ha, hl, bind, Except.bind, pure, Except.pure] using h

theorem mapM_total {α β : Type} {F G : α → Res β} {l : List α} {r : List β} (h : l.mapM F = .ok r)
    (hfg : ∀ a ∈ l, ∀ b, F a = .ok b → ∃ c, G a = .ok c) : ∃ r', l.mapM G = .ok r' := by
  induction l generalizing r with
  | nil => exact ⟨[], rfl⟩
  | cons a l ih =>
    rw [List.mapM_cons] at h
    cases ha : F a with
    | error e => simp [ha, bind, Except.bind] at h
    | ok b =>
      cases hl : l.mapM F with
      | error e => simp [ha, hl, bind, Except.bind] at h
      | ok bs =>
        obtain ⟨c, hc⟩ := hfg a (by simp) b ha
        obtain ⟨r', hr'⟩ := ih hl (fun a' h' => hfg a' (List.mem_cons_of_mem _ h'))
        exact ⟨c :: r', by rw [List.mapM_cons, hc, hr']; rfl⟩

theorem Extends.readRow {j : Int} {f g : File V} (h : Extends (u64 j) f g) {p : Path} {r : List V}
    (hr : readRow f p j = .ok r) : readRow g p j = .ok r := by
  simp only [Hdf5.readRow] at hr ⊢
  cases hd : f.ds p with
  | none => simp [hd] at hr
  | some d =>
    obtain ⟨d', h1, h2, h3⟩ := h.data p d hd
    simpa only [h1, h2, h3, hd] using hr

theorem Extends.needGroup {k : Nat} {f g : File V} (h : Extends k f g) {x : Grp} {u : Unit}
    (hr : needGroup f x = .ok u) : Hdf5.needGroup g x = .ok u := by
  simp only [Hdf5.needGroup] at hr ⊢
  cases hx : f.grp x with
  | false => simp [hx] at hr
  | true => simp [h.grp x hx]

theorem Extends.readAttr {k : Nat} {f g : File V} (h : Extends k f g) {x : AttrName} {u : Attr V}
    (hr : readAttr f x = .ok u) : ∃ w, Hdf5.readAttr g x = .ok w := by
  have : (g.attr x).isSome = true := by
    apply h.attr
    simp only [Hdf5.readAttr] at hr
    cases hx : f.attr x with
    | none => simp [hx] at hr
    | some _ => rfl
  obtain ⟨w, hw⟩ := Option.isSome_iff_exists.mp this
  exact ⟨w, by simp [Hdf5.readAttr, hw]⟩

theorem bind_ok {α β : Type} {x : Res α} {k : α → Res β} {b : β} (h : (x >>= k) = .ok b) :
    ∃ a, x = .ok a ∧ k a = .ok b := by
  cases x with
  | error e => cases h
  | ok a => exact ⟨a, rfl, h⟩

theorem ok_bind {α β : Type} (a : α) (k : α → Res β) : ((.ok a : Res α) >>= k) = k a := rfl

/-- What could be read from a layer can still be read. -/
theorem Extends.readState {j : Int} {f g : File V} (h : Extends (u64 j) f g) {data : List (Path × List V)}
    (hr : readState f j = .ok data) : Hdf5.readState g j = .ok data := by
  have row : ∀ (p : Path) (b : Path × List V),
      (do let r ← Hdf5.readRow f p j; pure (p, r) : Res _) = .ok b →
      (do let r ← Hdf5.readRow g p j; pure (p, r) : Res _) = .ok b := by
    intro p b hb
    cases hp : Hdf5.readRow f p j with
    | error e => simp [hp, bind, Except.bind] at hb
    | ok r =>
      rw [h.readRow hp]
      rwa [hp] at hb
  unfold Hdf5.readState at hr ⊢
  obtain ⟨m, h1, hr⟩ := bind_ok hr
  obtain ⟨u2, h2, hr⟩ := bind_ok hr
  obtain ⟨u3, h3, hr⟩ := bind_ok hr
  obtain ⟨q, h4, hr⟩ := bind_ok hr
  obtain ⟨u5, h5, hr⟩ := bind_ok hr
  obtain ⟨u6, h6, hr⟩ := bind_ok hr
  have g1 := mapM_mono h1 (fun p _ b hb => row p b hb)
  have g2 := h.needGroup h2
  have g3 := mapM_mono h3 (fun x _ b hb => h.needGroup hb)
  have g4 := mapM_mono h4 (fun p _ b hb => row p b hb)
  have g5 := h.needGroup h5
  obtain ⟨w, g6⟩ := mapM_total h6 (fun x _ b hb => h.readAttr hb)
  rw [g1, g2, ok_bind, ok_bind, g3, ok_bind, g4, ok_bind, g5, ok_bind, g6, ok_bind]
  exact hr

theorem addState_extends (f : File V) (it : Int) (s : Snapshot V) (conv : Bool) {k : Nat} (hk : k ≠ u64 it) :
    ∃ g, (addState fill B (some f) it s conv).1 = some g ∧ Extends k f g := by
  simp only [addState]
  split
  · exact ⟨f, rfl, .refl k f⟩
  · split
    · refine ⟨_, rfl, ?_⟩
      simp only [writeLayer, openFor, ↓reduceIte]
      refine Extends.run fun o ho p r hpr => ?_
      subst hpr
      exact hk (writeOps_putRow ho).1
    · exact ⟨f, rfl, .refl k f⟩

/-- The writes of the solver leave the layers up to its starting point alone, also if one of them fails. -/
theorem solverWrites_extends (l : List (Snapshot V × Bool)) (it : Int) (h0 : 0 ≤ it)
    (hl : it + l.length < 2 ^ 31) (f : File V) {j : Int} (hj0 : 0 ≤ j) (hj : j ≤ it) :
    ∃ g, (history fill B (some f) (solverWrites it l)).1 = some g ∧ Extends (u64 j) f g := by
  induction l generalizing it f with
  | nil => exact ⟨f, rfl, .refl _ f⟩
  | cons s l ih =>
    have hlen : ((s :: l).length : Int) = l.length + 1 := by simp
    rw [hlen] at hl
    have hne : u64 j ≠ u64 (it + 1) := by
      rw [u64_of_nonneg hj0 (by omega), u64_of_nonneg (by omega) (by omega)]
      omega
    obtain ⟨g, hg, hx⟩ := addState_extends (fill := fill) (B := B) f (it + 1) s.1 s.2 hne
    simp only [solverWrites, history, call]
    cases hc : addState fill B (some f) (it + 1) s.1 s.2 with
    | mk d e =>
      rw [hc] at hg
      cases e with
      | some e => exact ⟨g, hg, hx⟩
      | none =>
        simp only at hg
        subst hg
        obtain ⟨g', hg', hx'⟩ := ih (it + 1) (by omega) (by omega) g (by omega)
        exact ⟨g', hg', hx.trans hx'⟩

/-- In a new file all layers except the first hold the fill value. -/
theorem create_fill {disk : Option (File V)} {n : Int} {s : Snapshot V} {conv : Bool} {f : File V}
    (h : writeState fill B disk n s conv = (some f, none)) {p : Path} (hp : p ∈ allPaths) :
    ∃ d, f.ds p = some d ∧ d.layers = u64 n ∧ d.width = (s.content p).length ∧
      ∀ k, k ≠ 0 → d.row k = List.replicate (s.content p).length fill := by
  simp only [writeState, writeLayer, openFor, Bool.false_eq_true, ↓reduceIte] at h
  have hf : (run fill File.empty (writeOps B s (u64 0) (u64 n) false false conv)).1 = f :=
    Option.some.inj (congrArg Prod.fst h)
  have hok : (run fill File.empty (writeOps B s (u64 0) (u64 n) false false conv)).2 = none :=
    congrArg Prod.snd h
  have hu0 : u64 0 = 0 := rfl
  rw [hu0] at hf hok
  rw [← hf]
  refine run_estab (fun f => ∃ d, f.ds p = some d ∧ d.layers = u64 n ∧ d.width = (s.content p).length ∧
      ∀ k, k ≠ 0 → d.row k = List.replicate (s.content p).length fill)
    _ _ (writeOps_mkDs_mem B s 0 (u64 n) false conv hp) ?_ ?_ _ hok
  · intro f f' hst
    exact ⟨_, (step_mkDs hst).2, rfl, rfl, fun _ _ => rfl⟩
  · rintro o ho f f' ⟨d, hd, hl, hw, hr⟩ hst
    obtain ⟨d', hd', hl', hw', hr'⟩ := step_ds hst hd
    refine ⟨d', hd', hl'.trans hl, hw'.trans hw, fun k hk => ?_⟩
    rw [hr' k ?_, hr k hk]
    rintro r rfl
    exact hk (writeOps_putRow ho).1

end Verif.Continue
