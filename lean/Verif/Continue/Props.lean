import Verif.Continue.Lemmas
import Verif.Hdf5.Props

/-
C70: continuing a flow from a file.
-/
namespace Verif.Continue

open Verif.Hdf5

variable {V : Type} {fill : V} {B : Build}

/-- C70, for the overload that finds out by itself where to continue.  After any completed writes it leaves the
file as it is; if some write was flagged as converged it returns the state of the last layer written, otherwise
it continues from that state with the number of that layer; and whatever the solver then writes, however many
steps it makes and even if one of the writes fails, all layers up to the starting point can be read as before. -/
theorem c70_resume (h : List (Call V)) (hsane : ∀ c ∈ h, c.Sane) (f : File V) (t : Table V)
    (hh : history fill B none h = (some f, none)) (ht : Table.afterAll h = some t) (n : Int)
    (fresh : Snapshot V) :
    ∃ s, t.layer t.last = some s ∧ 0 ≤ t.last ∧
      startFlow fill B (some f) n fresh =
        (some f, .ok (if t.anyConv then .returns s.stored else .flows t.last s.stored)) ∧
      ∀ steps : List (Snapshot V × Bool), t.last + steps.length < 2 ^ 31 →
        KeepsUpTo t.last (some f) (history fill B (some f) (solverWrites t.last steps)).1 := by
  rcases history_rep h none none (Or.inl ⟨rfl, rfl⟩) hsane _ hh with ⟨hd, _⟩ | ⟨f', t', hd, ht', hrep⟩
  · cases hd
  · cases hd
    rw [Table.afterAll, ht'] at ht
    cases ht
    obtain ⟨s, hs⟩ := Option.isSome_iff_exists.mp hrep.lastLayer
    have h0 := (hrep.inside _ _ hs).1
    refine ⟨s, hs, h0, ?_, ?_⟩
    · simp only [startFlow, hrep.check]
      cases hc : t.anyConv with
      | true => simp [hrep.read hs, Except.map]
      | false => simp [h0, hrep.read hs, Except.map]
    · intro steps hl g hg j data hj0 hj hr
      cases hg
      obtain ⟨g', hg', hx⟩ := solverWrites_extends (fill := fill) (B := B) steps t.last h0 hl f hj0 hj
      exact ⟨g', hg', hx.readState hr⟩

/-- C70, same overload, no file yet: a file is created whose layer 0 is the prepared state. -/
theorem c70_new (n : Int) (fresh : Snapshot V) (hs : (fresh.content .lambdas).length = 1) (h0 : 1 ≤ n)
    (h1 : n < 2 ^ 31) :
    ∃ f, startFlow fill B none n fresh = (some f, .ok (.fresh fresh)) ∧ readState f 0 = .ok fresh.stored ∧
      ∀ steps : List (Snapshot V × Bool), (steps.length : Int) < 2 ^ 31 →
        KeepsUpTo 0 (some f) (history fill B (some f) (solverWrites 0 steps)).1 := by
  obtain ⟨f, hf⟩ := create_ok (fill := fill) (B := B) none fresh h0 h1
  have hrep := rep_create (fill := fill) (B := B) (disk := none) ⟨hs, by omega, h1⟩ hf
  refine ⟨f, by simp [startFlow, checkConvergence, hf], hrep.read (by simp), ?_⟩
  intro steps hl g hg j data hj0 hj hr
  cases hg
  obtain ⟨g', hg', hx⟩ := solverWrites_extends (fill := fill) (B := B) steps 0 (by decide) (by omega) f hj0 hj
  exact ⟨g', hg', hx.readState hr⟩

/-- C70, for the overload with an explicit layer (partial: only what it starts from).  If the number is below
the number of layers of the *configuration*, then the flow starts from exactly that layer of the file, or the
layer cannot be read and an error is raised with the file left alone, or (`n` not a possible number of layers)
the new file cannot be written.
Missing: the saved layers are not kept, and too large a number is not an error; see below. -/
theorem c70_continue_partial (rebuild : List (Path × List V) → Snapshot V) (f : File V) (n it : Int)
    (hit : it < n) :
    (∃ g data, readState f it = .ok data ∧
        continueFlow fill B rebuild (some f) n it = (some g, .ok (.flows it data))) ∨
      (∃ e, readState f it = .error e ∧ continueFlow fill B rebuild (some f) n it = (some f, .error e)) ∨
      (¬ (1 ≤ n ∧ n < 2 ^ 31) ∧ ∃ g e, continueFlow fill B rebuild (some f) n it = (some g, .error e)) := by
  simp only [continueFlow, if_pos hit]
  cases hr : readState f it with
  | error e => exact Or.inr (Or.inl ⟨e, rfl, rfl⟩)
  | ok data =>
    by_cases hn : 1 ≤ n ∧ n < 2 ^ 31
    · obtain ⟨g, hg⟩ := create_ok (fill := fill) (B := B) (some f) (rebuild data) hn.1 hn.2
      exact Or.inl ⟨g, data, rfl, by simp [hg]⟩
    · cases hw : writeState fill B (some f) n (rebuild data) false with
      | mk d e =>
        have hd : ∃ g, d = some g := ⟨_, ((Prod.mk.inj hw).1).symm⟩
        obtain ⟨g, rfl⟩ := hd
        cases e with
        | none => exact Or.inl ⟨g, data, rfl, by simp [hw]⟩
        | some e => exact Or.inr (Or.inr ⟨hn, g, e, by simp [hw]⟩)

/-- C70 fails: continuing from an explicit layer destroys the saved layers.  Whatever the file held, whatever
the solver then writes: layer 0 is replaced by the layer from which the flow is continued, and every data set
holds nothing but fill values in all layers `1 … it`. -/
theorem c70_layers_lost_refuted (rebuild : List (Path × List V) → Snapshot V) (f : File V) (n it : Int)
    (data : List (Path × List V)) (hr : readState f it = .ok data) (h0 : 0 ≤ it) (hit : it < n)
    (hn : n < 2 ^ 31) (hs : ((rebuild data).content .lambdas).length = 1)
    (steps : List (Snapshot V × Bool)) (hl : it + steps.length < 2 ^ 31) :
    ∃ g g', continueFlow fill B rebuild (some f) n it = (some g, .ok (.flows it data)) ∧
      (history fill B (some g) (solverWrites it steps)).1 = some g' ∧
      readState g' 0 = .ok (rebuild data).stored ∧
      ∀ p ∈ readMain, ∀ j, 1 ≤ j → j ≤ it →
        readRow g' p j = .ok (List.replicate ((rebuild data).content p).length fill) := by
  obtain ⟨g, hg⟩ := create_ok (fill := fill) (B := B) (some f) (rebuild data) (by omega : 1 ≤ n) hn
  have hrep := rep_create (fill := fill) (B := B) (disk := some f) ⟨hs, by omega, hn⟩ hg
  obtain ⟨g', hg', hx⟩ := solverWrites_extends (fill := fill) (B := B) steps it h0 hl g
    (j := 0) (by decide) h0
  refine ⟨g, g', by simp [continueFlow, hit, hr, hg], hg', hx.readState (hrep.read (by simp)), ?_⟩
  intro p hp j hj1 hj
  obtain ⟨g'', hg'', hxj⟩ := solverWrites_extends (fill := fill) (B := B) steps it h0 hl g
    (j := j) (by omega) hj
  rw [hg'] at hg''
  cases hg''
  obtain ⟨d, hd, hlay, _, hrow⟩ := create_fill hg (read_subset (List.mem_append_left _ hp))
  apply hxj.readRow
  have hu : u64 j = j.toNat := u64_of_nonneg (by omega) (by omega)
  have hun : u64 n = n.toNat := u64_of_nonneg (by omega) (by omega)
  simp only [readRow, hd, hlay, hu, hun]
  rw [if_pos (by omega), hrow _ (by omega)]

/-- C70 fails, concretely: a file with three layers all of which have been written, continued from layer 1.
Before, layers 0 and 1 hold the values 1 and 2; afterwards, and without any step of the solver, they hold 2 and
the fill value. -/
theorem c70_keeps_refuted : ∃ (f g : File Nat) (rebuild : List (Path × List Nat) → Snapshot Nat),
    readState f 0 = .ok (constSnapshot 1).stored ∧ readState f 1 = .ok (constSnapshot 2).stored ∧
    (∀ s : Snapshot Nat, (∀ p, (s.content p).length = 1) → (rebuild s.stored).stored = s.stored) ∧
    continueFlow 0 ⟨2, 3, 0⟩ rebuild (some f) 3 1 = (some g, .ok (.flows 1 (constSnapshot 2).stored)) ∧
    readRow g .lambdas 0 = .ok [2] ∧ readRow g .lambdas 1 = .ok [0] ∧
    ¬ KeepsUpTo 1 (some f) (some g) := by
  let calls : List (Call Nat) := .create 3 (constSnapshot 1) false ::
    [((1 : Int), constSnapshot 2, false), (2, constSnapshot 3, false)].map (fun x => .add x.1 x.2.1 x.2.2)
  obtain ⟨disk, hd⟩ := history_adds_ok (fill := 0) (B := ⟨2, 3, 0⟩) (constSnapshot 1) rfl 3 (by decide)
    (by decide) [((1 : Int), constSnapshot 2, false), (2, constSnapshot 3, false)] (by simp [constSnapshot])
  have hsane : ∀ c ∈ calls, c.Sane := by
    intro c hc
    simp [calls] at hc
    rcases hc with rfl | rfl | rfl <;> simp [Call.Sane, constSnapshot]
  obtain ⟨f, rfl, hread, _⟩ := c51_read_back calls hsane disk hd
  have r0 : readState f 0 = .ok (constSnapshot 1).stored := hread 0 _ rfl
  have r1 : readState f 1 = .ok (constSnapshot 2).stored := hread 1 _ rfl
  let rebuild : List (Path × List Nat) → Snapshot Nat := fun l =>
    ⟨fun p => match l.find? (fun q => q.1 = p) with
      | some q => q.2
      | none => [0], 10, 1, 0, 0, 0, 0, 0, 0⟩
  have hfind : ∀ (s : Snapshot Nat) (l : List Path) (p : Path), p ∈ l →
      (l.map (fun p => (p, s.content p))).find? (fun q => q.1 = p) = some (p, s.content p) := by
    intro s l p
    induction l with
    | nil => simp
    | cons q l ih =>
      intro hm
      by_cases hq : q = p
      · simp [hq]
      · simp only [List.map_cons, List.find?_cons, hq, decide_false]
        exact ih (by simpa [Ne.symm hq] using hm)
  have hre : ∀ (s : Snapshot Nat), (rebuild s.stored).stored = s.stored := by
    intro s
    unfold Snapshot.stored
    apply List.map_congr_left
    intro p hp
    show (p, _) = _
    simp only [rebuild]
    rw [hfind s _ p hp]
  have hc : (rebuild (constSnapshot 2).stored).content .lambdas = [2] := by
    simp only [rebuild, Snapshot.stored]
    rw [hfind (constSnapshot 2) _ .lambdas (by decide)]
    rfl
  obtain ⟨g, g', hg, hg', h0, hrow⟩ := c70_layers_lost_refuted (fill := 0) (B := ⟨2, 3, 0⟩) rebuild f 3 1 _ r1
    (by decide) (by decide) (by decide) (by rw [hc]; rfl) [] (by decide)
  cases hg'
  have hl1 := hrow .lambdas (by decide) 1 (by decide) (by decide)
  rw [hc] at hl1
  have hread_lam : ∀ {f : File Nat} {s : Snapshot Nat} {j : Int}, readState f j = .ok s.stored →
      readRow f .lambdas j = .ok (s.content .lambdas) := by
    intro f s j h
    unfold readState at h
    obtain ⟨m, h1, h⟩ := bind_ok h
    obtain ⟨_, _, h⟩ := bind_ok h
    obtain ⟨_, _, h⟩ := bind_ok h
    obtain ⟨q, _, h⟩ := bind_ok h
    obtain ⟨_, _, h⟩ := bind_ok h
    obtain ⟨_, _, h⟩ := bind_ok h
    simp only [readMain, List.cons_append, List.mapM_cons] at h1
    obtain ⟨b, hb, h1⟩ := bind_ok h1
    obtain ⟨_, _, h1⟩ := bind_ok h1
    cases h1
    obtain ⟨r, hr, hb⟩ := bind_ok hb
    cases hb
    simp only [pure, Except.pure, Except.ok.injEq, Snapshot.stored, readMain, List.cons_append, List.map_cons,
      List.cons.injEq, Prod.mk.injEq, true_and] at h
    rw [hr, h.1]
  have h0' := hread_lam h0
  rw [hc] at h0'
  refine ⟨f, g, rebuild, r0, r1, fun s _ => hre s, hg, h0', hl1, ?_⟩
  intro hk
  obtain ⟨g', hg', hr'⟩ := hk f rfl 1 _ (by decide) (by decide) r1
  cases hg'
  have := hread_lam hr'
  rw [hl1] at this
  simp [constSnapshot] at this

/-- C70 fails: a layer beyond the configured number of layers raises no error, whatever the file holds; a
default state is returned as if it were the result of the flow. -/
theorem c70_too_large_refuted (rebuild : List (Path × List V) → Snapshot V) (disk : Option (File V)) (n it : Int)
    (h : n ≤ it) : continueFlow fill B rebuild disk n it = (disk, .ok .defaultState) := by
  have : ¬ it < n := by omega
  simp only [continueFlow, this, if_false]

/-- A file to which `c70_resume` applies: five layers, of which 0, 1, 2 are written. -/
example : ∃ f t, history (0 : Nat) ⟨2, 3, 0⟩ none
      (.create 5 (constSnapshot 7) false ::
        [((1 : Int), constSnapshot 8, false), (2, constSnapshot 9, false)].map (fun x => .add x.1 x.2.1 x.2.2))
        = (some f, none) ∧
    Table.afterAll (.create 5 (constSnapshot 7) false ::
        [((1 : Int), constSnapshot 8, false), (2, constSnapshot 9, false)].map (fun x => .add x.1 x.2.1 x.2.2))
        = some t ∧ t.last = 2 ∧ t.anyConv = false ∧ startFlow 0 ⟨2, 3, 0⟩ (some f) 5 (constSnapshot 4) =
          (some f, .ok (.flows 2 (constSnapshot 9).stored)) := by
  obtain ⟨disk, hd⟩ := history_adds_ok (fill := 0) (B := ⟨2, 3, 0⟩) (constSnapshot 7) rfl 5 (by decide)
    (by decide) [((1 : Int), constSnapshot 8, false), (2, constSnapshot 9, false)] (by simp [constSnapshot])
  have hsane : ∀ c ∈ (Call.create 5 (constSnapshot 7) false ::
      [((1 : Int), constSnapshot 8, false), (2, constSnapshot 9, false)].map (fun x => .add x.1 x.2.1 x.2.2)),
      c.Sane := by
    intro c hc
    simp at hc
    rcases hc with rfl | rfl | rfl <;> simp [Call.Sane, constSnapshot]
  obtain ⟨f, rfl, _⟩ := c51_read_back _ hsane disk hd
  obtain ⟨s, hs, _, hst, _⟩ := c70_resume _ hsane f _ hd rfl 5 (constSnapshot 4)
  cases hs
  exact ⟨f, _, hd, rfl, rfl, rfl, hst⟩

end Verif.Continue
