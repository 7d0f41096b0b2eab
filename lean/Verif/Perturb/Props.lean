import Verif.Perturb.Lemmas

/-
C100: where bubble_function puts its result. C101: second-order perturbation theory. C102: third order. C103: fourth order.
-/
namespace Verif.Perturb
variable {A S : Type} [AddCommGroup A]

/-- The toy bubble satisfies all the rules. -/
theorem toy_exact : Exact toy where
  addl ch k x y z := by
    cases ch <;> cases k <;> simp [toy, toySame, toyDiff, Vtx.plus] <;> ring
  addr ch k x y z := by
    cases ch <;> cases k <;> simp [toy, toySame, toyDiff, Vtx.plus] <;> ring
  sameLeft ch k x z h hk := by
    rcases hk with rfl | rfl <;> cases ch <;> simp [toy, toyDiff, h]
  sameRight ch k x z h hk := by
    rcases hk with rfl | rfl <;> cases ch <;> simp [toy, toyDiff, h]
  otherLeft ch k x z h h' hk := by
    rcases hk with rfl | rfl <;> simp [toy, toySame, h, h']
  otherRight ch k x z h h' hk := by
    rcases hk with rfl | rfl <;> simp [toy, toySame, h, h']
  ladder ch k x y hx hy := by
    subst hx hy
    cases ch <;> cases k <;> simp [toy, toySame, toyDiff]

/-! ### C100 -/

/-- C100, what holds: the requested classes of the channel hold the bubble of the two vertices, whatever they held
before; everything else is left alone. If the requested classes were zero before, the result has been added. -/
theorem c100_result_partial (N : Numerics A S) (debug : Bool) (dst l r : Vtx A) (ch : Ch) (todo : Bool × Bool × Bool) :
    (bubbleFunction N debug dst l r ch todo).irred = dst.irred ∧
    (∀ k, computed debug todo k = true → (bubbleFunction N debug dst l r ch todo).red ch k = N.bubble ch k l r) ∧
    (∀ k, computed debug todo k = true → dst.red ch k = 0 →
      (bubbleFunction N debug dst l r ch todo).red ch k = dst.red ch k + N.bubble ch k l r) ∧
    (∀ c k, c ≠ ch ∨ computed debug todo k = false → (bubbleFunction N debug dst l r ch todo).red c k = dst.red c k) := by
  refine ⟨rfl, fun k hk => ?_, fun k hk h0 => ?_, fun c k h => ?_⟩
  · simp [bubbleFunction, hk]
  · simp [bubbleFunction, hk, h0]
  · rcases h with h | h <;> simp [bubbleFunction, h]

/-- The four classes that are computed by default, and with which switches. -/
theorem c100_classes_partial (debug : Bool) (b1 b2 b3 : Bool) :
    (computed debug (b1, b2, b3) .k1 = b1) ∧ (computed debug (b1, b2, b3) .k2 = b2) ∧
    (computed debug (b1, b2, b3) .k2b = true ↔ b2 = true ∧ debug = true) ∧ (computed debug (b1, b2, b3) .k3 = b3) := by
  refine ⟨rfl, rfl, ?_, rfl⟩
  simp [computed]

/-- C100 is false: the result is documented to be added to the vertex that is passed in, but for every channel there is
a case in which what was stored there is lost. -/
theorem c100_added_refuted (ch : Ch) (debug : Bool) : ∃ (N : Numerics Int Int) (dst l r : Vtx Int), Exact N ∧
    (bubbleFunction N debug dst l r ch).red ch .k1 ≠ dst.red ch .k1 + N.bubble ch .k1 l r := by
  refine ⟨toy, ⟨0, fun _ _ => 5⟩, bareV toy, bareV toy, toy_exact, ?_⟩
  rw [(c100_result_partial toy debug _ _ _ ch (true, true, true)).2.1 .k1 rfl]
  simp

/-- C100 is false for a letter that names no channel: nothing happens, and nothing is reported. -/
theorem c100_letter_refuted (N : Numerics A S) (debug : Bool) (dst l r : Vtx A) (c : Char) (todo : Bool × Bool × Bool)
    (h : c ≠ 'a' ∧ c ≠ 'p' ∧ c ≠ 't') : bubbleFunctionChar N debug dst l r c todo = dst := by
  simp [bubbleFunctionChar, h.1, h.2.1, h.2.2]

/-- The letters that name a channel select it. -/
theorem c100_letters_partial (N : Numerics A S) (debug : Bool) (dst l r : Vtx A) (todo : Bool × Bool × Bool) :
    bubbleFunctionChar N debug dst l r 'a' todo = bubbleFunction N debug dst l r .a todo ∧
    bubbleFunctionChar N debug dst l r 'p' todo = bubbleFunction N debug dst l r .p todo ∧
    bubbleFunctionChar N debug dst l r 't' todo = bubbleFunction N debug dst l r .t todo := by
  refine ⟨rfl, ?_, ?_⟩
  · simp [bubbleFunctionChar, show ('p' : Char) ≠ 'a' by decide]
  · simp [bubbleFunctionChar, show ('t' : Char) ≠ 'a' by decide, show ('t' : Char) ≠ 'p' by decide]

/-- Without a choice of classes all of them are computed. -/
theorem c100_default_partial (N : Numerics A S) (debug : Bool) (dst l r : Vtx A) (c : Char) (ch : Ch) :
    bubbleFunctionChar N debug dst l r c = bubbleFunctionChar N debug dst l r c (true, true, true) ∧
    bubbleFunction N debug dst l r ch = bubbleFunction N debug dst l r ch (true, true, true) := ⟨rfl, rfl⟩

/-! ### C101 -/

/-- C101: the second-order state of an initialised state (bare vertex, nothing else in the vertex) is the vertex up to
second order; the self-energy is the loop over the second-order contribution of channel a, and its asymptotic value is
the Hartree term, whatever the state held as self-energy before. -/
theorem c101_second_order_partial [AddCommGroup S] (N : Numerics A S) (E : Exact N) (debug : Bool) (psi : St A S)
    (h : psi.vertex = ⟨N.bare, fun _ _ => 0⟩) :
    (sopt N debug psi).vertex = upTo N 2 ∧
    (sopt N debug psi).se.asymp = N.hartree ∧
    (sopt N debug psi).se.data = N.loop ⟨0, fun c k => if c = .a then (order N 2).red c k else 0⟩ := by
  have key : ∀ ch k, (order N 2).red ch k = if k = .k1 then N.bubble ch .k1 (bareV N) (bareV N) else 0 := by
    intro ch k
    split_ifs with hk
    · rw [hk, order_two]
    · exact two_classes E ch k hk
  refine ⟨Vtx.ext' ?_ fun c k => ?_, rfl, ?_⟩
  · simp [sopt, soptImpl, vertexInSOPT, bubbleFunction, h, upTo, Vtx.plus, order_one, order_two_irred, Vtx.zero, bareV]
  · simp only [sopt, soptImpl, vertexInSOPT, List.foldl_cons, List.foldl_nil, bubbleFunction, h, bare_vertex, upTo,
      Vtx.plus, order_one, key, Vtx.zero]
    cases c <;> cases k <;> simp [computed, bareV, order_one]
  · show N.loop _ = N.loop _
    congr 1
    refine Vtx.ext' rfl fun c k => ?_
    simp only [bubbleFunction, bare_vertex, Vtx.zero, key]
    cases c <;> cases k <;> simp [computed]

/-- For any state the other classes are kept as they were: a state that already holds second-class or third-class data
keeps them. -/
theorem c101_kept_partial [Zero S] (N : Numerics A S) (debug : Bool) (psi : St A S) (c : Ch) (k : Cls) :
    (sopt N debug psi).vertex.irred = psi.vertex.irred ∧
    (sopt N debug psi).vertex.red c k = if k = .k1 then (order N 2).red c .k1 else psi.vertex.red c k := by
  refine ⟨rfl, ?_⟩
  simp only [sopt, soptImpl, vertexInSOPT, List.foldl_cons, List.foldl_nil, bubbleFunction, bare_vertex, order_two]
  cases c <;> cases k <;> simp [computed]

/-- The bare state meets the hypothesis, and its second-order part is not zero. -/
example : (bareState toy).vertex = ⟨toy.bare, fun _ _ => 0⟩ ∧ (order toy 2).red .a .k1 = 1 :=
  ⟨rfl, by rw [order_two]; decide⟩

/-- C101 is false of the overload that also takes a scale and a configuration: whatever the depth of the call stack, it
does not return. -/
theorem c101_overload_refuted (N : Numerics A S) (debug : Bool) (fuel : Nat) (psi : St A S) :
    soptOverload N debug fuel psi = none := by
  induction fuel with
  | zero => rfl
  | succ n ih => exact ih

/-! ### C102 -/

/-- The sum of the parts in two channels is the part irreducible in the third. -/
theorem only_plus (N : Numerics A S) :
    (only .p (order N 2)).plus (only .t (order N 2)) = irreducibleIn .a (order N 2) ∧
    (only .a (order N 2)).plus (only .t (order N 2)) = irreducibleIn .p (order N 2) ∧
    (only .a (order N 2)).plus (only .p (order N 2)) = irreducibleIn .t (order N 2) := by
  refine ⟨Vtx.ext' ?_ ?_, Vtx.ext' ?_ ?_, Vtx.ext' ?_ ?_⟩ <;>
    first
    | (simp [only, Vtx.plus, irreducibleIn, order_two_irred]; done)
    | (intro c k; cases c <;> simp [only, Vtx.plus, irreducibleIn])

/-- The vertex of the third-order state when all symmetries are checked: every class holds what the last of the calls
wrote. -/
theorem topt_debug [AddCommGroup S] (N : Numerics A S) (E : Exact N) (ch k) :
    (topt N true).vertex.red ch k = N.bubble ch k (bareV N) (irreducibleIn ch (order N 2)) := by
  have ha := bubble_fresh E true .a
  have hp := bubble_fresh E true .p
  have ht := bubble_fresh E true .t
  have hz : (Vtx.zero.init 0 : Vtx A) = Vtx.zero := rfl
  have hq : (only .p (order N 2)).init 0 = only .p (order N 2) := rfl
  rw [hz] at ha hp ht
  obtain ⟨q1, q2, q3⟩ := only_plus N
  simp only [topt, vertexInTOPT, if_true, bare_vertex, hz, ha, hp, ht, hq, q1, q2, q3]
  cases ch <;> cases k <;> simp [bubbleFunction, computed]

/-- C102 is false when all symmetries are checked: the third-order state has lost the first and the second class in
every channel, for every numerics. -/
theorem c102_lost_refuted [AddCommGroup S] (N : Numerics A S) (E : Exact N) (ch : Ch) :
    (topt N true).vertex.red ch .k1 = 0 ∧ (topt N true).vertex.red ch .k2 = 0 := by
  have h : (irreducibleIn ch (order N 2)).irred = 0 := order_two_irred N
  have h' : ∀ j, (irreducibleIn ch (order N 2)).red ch j = 0 := by intro j; simp [irreducibleIn]
  rw [topt_debug N E, topt_debug N E]
  exact ⟨E.otherRight _ _ _ _ h h' (.inl rfl), E.otherRight _ _ _ _ h h' (.inr rfl)⟩

/-- The part of the second order that is irreducible in a channel carries neither a bare vertex nor that channel. -/
theorem irr_two (N : Numerics A S) (ch : Ch) : (irreducibleIn ch (order N 2)).irred = 0 ∧
    ∀ j, (irreducibleIn ch (order N 2)).red ch j = 0 :=
  ⟨order_two_irred N, fun j => by simp [irreducibleIn]⟩

theorem only_two {N : Numerics A S} (E : Exact N) (ch : Ch) (c : Ch) (j : Cls) (h : c ≠ ch ∨ j ≠ .k1) :
    (only ch (order N 2)).red c j = 0 := by
  simp only [only]
  split_ifs with hc
  · rcases h with h | h
    · exact absurd hc h
    · exact two_classes E c j h
  · rfl

/-- The ladder of three bare vertices. -/
theorem ladder_two {N : Numerics A S} (E : Exact N) (ch : Ch) (k : Cls) :
    N.bubble ch k (only ch (order N 2)) (bareV N) = N.bubble ch k (bareV N) (only ch (order N 2)) := by
  refine E.ladder ch k (bareV N) _ rfl (Vtx.ext' rfl fun c j => ?_)
  simp only [only]
  by_cases h : c = ch
  · subst h; simp [order_two]
  · simp [h]

/-- C102, the diagrams: the sum of the contributions that the nine calls compute is the third order, in every channel
and class. -/
theorem c102_diagrams_partial (N : Numerics A S) (E : Exact N) (ch : Ch) (k : Cls) :
    N.bubble ch k (only ch (order N 2)) (bareV N) + N.bubble ch k (irreducibleIn ch (order N 2)) (bareV N) +
      N.bubble ch k (bareV N) (irreducibleIn ch (order N 2)) = (order N 3).red ch k := by
  have h := E.addr ch k (only ch (order N 2)) (irreducibleIn ch (order N 2)) (bareV N)
  rw [← two_split] at h
  rw [order_three, ladder_two E, h]
  abel

/-- The second-order state inside the third-order one. -/
theorem sopt_in_topt [Zero S] (N : Numerics A S) (E : Exact N) (debug : Bool) :
    (soptImpl N debug ⟨Vtx.zero, ⟨0, 0⟩⟩ (bareState N)).vertex = order N 2 := by
  refine Vtx.ext' (order_two_irred N).symm fun c k => ?_
  by_cases hk : k = .k1
  · subst hk
    simp only [soptImpl, vertexInSOPT, List.foldl_cons, List.foldl_nil, bubbleFunction, bare_vertex, order_two]
    cases c <;> simp [computed]
  · rw [two_classes E c k hk]
    simp only [soptImpl, vertexInSOPT, List.foldl_cons, List.foldl_nil, bubbleFunction, bare_vertex]
    cases c <;> cases k <;> simp_all [computed, Vtx.zero]

/-- The vertex of the third-order state in a symmetric run. -/
theorem topt_sym [AddCommGroup S] (N : Numerics A S) (E : Exact N) (ch k) (hk : k ≠ .k2b) :
    (topt N false).vertex.red ch k = match ch with
      | .a => N.bubble .a k (only .p (order N 2)) (bareV N)
      | .p => N.bubble .p k (only .a (order N 2)) (bareV N)
      | .t => N.bubble .t k (order N 2) (bareV N) := by
  have ha := bubble_fresh E false .a
  have hp := bubble_fresh E false .p
  have hs := sopt_in_topt N E false
  simp only [topt, vertexInTOPT, Bool.false_eq_true, if_false, bare_vertex, hs, ha, hp]
  cases ch <;> cases k <;> simp_all [bubbleFunction, computed]

/-- C102 is false otherwise, too: the first class of channels a and p is lost, and that of channel t holds the third
order without the second. -/
theorem c102_lost_symmetric_refuted [AddCommGroup S] (N : Numerics A S) (E : Exact N) :
    (topt N false).vertex.red .a .k1 = 0 ∧ (topt N false).vertex.red .p .k1 = 0 ∧
    (topt N false).vertex.red .t .k1 = (order N 3).red .t .k1 := by
  have hk : Cls.k1 ≠ Cls.k2b := by decide
  rw [topt_sym N E _ _ hk, topt_sym N E _ _ hk, topt_sym N E _ _ hk]
  refine ⟨E.otherLeft _ _ _ _ rfl (fun j => by simp [only]) (.inl rfl),
    E.otherLeft _ _ _ _ rfl (fun j => by simp [only]) (.inl rfl), ?_⟩
  have h1 := E.addl .t .k1 (only .t (order N 2)) (irreducibleIn .t (order N 2)) (bareV N)
  rw [← two_split] at h1
  have h2 := E.otherRight .t .k1 _ (bareV N) (irr_two N .t).1 (irr_two N .t).2 (.inl rfl)
  simp only []
  rw [h1, ← c102_diagrams_partial N E, h2, add_zero]

/-- C102, what holds when all symmetries are checked: bare vertex, class 2' and class 3 are right to third order. -/
theorem c102_right_partial [AddCommGroup S] (N : Numerics A S) (E : Exact N) (ch : Ch) :
    (topt N true).vertex.irred = (upTo N 3).irred ∧
    (topt N true).vertex.red ch .k2b = (upTo N 3).red ch .k2b ∧
    (topt N true).vertex.red ch .k3 = (upTo N 3).red ch .k3 := by
  have hb : ∀ c j, c ≠ ch ∨ j ≠ Cls.k1 → (bareV N).red c j = 0 := fun _ _ _ => rfl
  refine ⟨?_, ?_, ?_⟩
  · have hs := sopt_in_topt N E true
    simp only [topt, vertexInTOPT, if_true, bubbleFunction, hs]
    simp [upTo, Vtx.plus, order_one, order_two_irred, order_three_irred, Vtx.zero, bareV, bare_vertex]
  · have h1 := E.sameRight ch .k2b _ (only ch (order N 2)) hb (.inl rfl)
    have h2 := E.sameRight ch .k2b _ (irreducibleIn ch (order N 2)) hb (.inl rfl)
    have h3 := two_classes E ch .k2b (by decide)
    rw [topt_debug N E]
    simp only [upTo, Vtx.plus, order_one, h3, ← c102_diagrams_partial N E, h1, h2]
    simp [Vtx.zero, bareV, order_one]
  · have h1 := E.sameRight ch .k3 _ (only ch (order N 2)) hb (.inr rfl)
    have h2 := E.sameRight ch .k3 _ (irreducibleIn ch (order N 2)) hb (.inr rfl)
    have h3 := two_classes E ch .k3 (by decide)
    have h4 := E.sameLeft ch .k3 _ (irreducibleIn ch (order N 2)) hb (.inr rfl)
    rw [topt_debug N E]
    simp only [upTo, Vtx.plus, order_one, h3, ← c102_diagrams_partial N E, h1, h2, h4]
    simp [Vtx.zero, bareV, order_one]

/-- C102, what holds in a symmetric run: if the stored spin component of channel t has no second-order contribution (as
for a local interaction between opposite spins), class 2 and class 3 are right to third order. -/
theorem c102_right_symmetric_partial [AddCommGroup S] (N : Numerics A S) (E : Exact N) (ch : Ch)
    (ht : ∀ k, N.bubble .t k ⟨N.bare, fun _ _ => 0⟩ ⟨N.bare, fun _ _ => 0⟩ = 0) :
    (topt N false).vertex.red ch .k2 = (upTo N 3).red ch .k2 ∧
    (topt N false).vertex.red ch .k3 = (upTo N 3).red ch .k3 := by
  have hb : ∀ c j, c ≠ ch ∨ j ≠ Cls.k1 → (bareV N).red c j = 0 := fun _ _ _ => rfl
  have hot : only .t (order N 2) = Vtx.zero := by
    refine Vtx.ext' rfl fun c k => ?_
    simp only [only, Vtx.zero]
    split_ifs with h
    · subst h; rw [order_two]; exact ht k
    · rfl
  have plusz : ∀ x : Vtx A, x.plus Vtx.zero = x := fun x => Vtx.ext' (add_zero _) (fun _ _ => add_zero _)
  obtain ⟨q1, q2, q3⟩ := only_plus N
  rw [hot, plusz] at q1 q2
  have hsp := two_split N .t
  rw [hot, zero_plus] at hsp
  have key : ∀ k, k = .k2 ∨ k = .k3 → (topt N false).vertex.red ch k = (upTo N 3).red ch k := by
    intro k hk
    have h1 := E.sameLeft ch k (bareV N) (order N 2) hb hk
    have h2 := two_classes E ch k (by rcases hk with rfl | rfl <;> decide)
    rw [topt_sym N E _ _ (by rcases hk with rfl | rfl <;> decide)]
    rw [upTo_three, h2, order_three, h1, zero_add, zero_add]
    cases ch <;> simp only [q1, q2]
    rw [← hsp]
  exact ⟨key _ (.inl rfl), key _ (.inr rfl)⟩

/-- C102 is false of the self-energy: its asymptotic value is twice the Hartree term. -/
theorem c102_hartree_refuted [AddCommGroup S] (N : Numerics A S) (debug : Bool) :
    (topt N debug).se.asymp = N.hartree + N.hartree ∧ (fopt N debug).se.asymp = N.hartree + N.hartree := ⟨rfl, rfl⟩

/-- The data of the self-energy is the second-order loop. -/
theorem c102_selfenergy_partial [AddCommGroup S] (N : Numerics A S) (E : Exact N) (debug : Bool) :
    (topt N debug).se.data = N.loop ⟨0, fun c k => if c = .a then (order N 2).red c k else 0⟩ ∧
    (fopt N debug).se.data = (topt N debug).se.data := by
  refine ⟨?_, rfl⟩
  have := (c101_second_order_partial N E debug ⟨⟨N.bare, fun _ _ => 0⟩, ⟨0, 0⟩⟩ rfl).2.2
  rw [← this]
  show (0 : S) + _ = _
  rw [zero_add]
  rfl

/-- C102 is false: a concrete case in which the third-order state differs from the sum of the first three orders in the
first class and in the asymptotic value of the self-energy, with and without the check of symmetries. -/
theorem c102_third_order_refuted (debug : Bool) : ∃ N : Numerics Int Int, Exact N ∧
    (topt N debug).vertex.red .a .k1 ≠ (upTo N 3).red .a .k1 ∧ (topt N debug).se.asymp ≠ N.hartree := by
  have hk : (upTo toy 3).red .a .k1 = 2 := by
    have h3 := c102_diagrams_partial toy toy_exact .a .k1
    have e1 := toy_exact.otherLeft .a .k1 _ (bareV toy) (irr_two toy .a).1 (irr_two toy .a).2 (.inl rfl)
    have e2 := toy_exact.otherRight .a .k1 _ (bareV toy) (irr_two toy .a).1 (irr_two toy .a).2 (.inl rfl)
    rw [e1, e2, add_zero, add_zero] at h3
    have e4 : only .a (order toy 2) = ⟨0, fun c j => if c = .a then (if j = .k1 then 1 else 0) else 0⟩ := by
      refine Vtx.ext' rfl fun c j => ?_
      simp only [only, order_two]
      cases c <;> cases j <;> decide
    rw [upTo_three, ← h3, e4, order_two]
    decide
  refine ⟨toy, toy_exact, ?_, by rw [(c102_hartree_refuted toy debug).1]; decide⟩
  rw [hk]
  cases debug
  · rw [(c102_lost_symmetric_refuted toy toy_exact).1]; decide
  · rw [(c102_lost_refuted toy toy_exact .a).1]; decide

/-! ### C103 -/

/-- The vertex of the fourth-order state when all symmetries are checked. -/
theorem fopt_debug [AddCommGroup S] (N : Numerics A S) (E : Exact N) (ch k) :
    (fopt N true).vertex.red ch k =
      N.bubble ch k (irreducibleIn ch (order N 2)) (irreducibleIn ch (order N 2)) := by
  have ha := bubble_fresh E true .a
  have hp := bubble_fresh E true .p
  have ht := bubble_fresh E true .t
  obtain ⟨q1, q2, q3⟩ := only_plus N
  simp only [fopt, vertexInFOPT, if_true, bare_vertex, ha, hp, ht, q1, q2, q3]
  cases ch <;> cases k <;> simp [bubbleFunction, computed]

/-- C103 is false: when all symmetries are checked, the fourth-order state has lost the classes 1, 2 and 2' in every
channel, for every numerics. -/
theorem c103_lost_refuted [AddCommGroup S] (N : Numerics A S) (E : Exact N) (ch : Ch) (k : Cls) (hk : k ≠ .k3) :
    (fopt N true).vertex.red ch k = 0 := by
  have h := irr_two N ch
  rw [fopt_debug N E]
  cases k with
  | k1 => exact E.otherLeft _ _ _ _ h.1 h.2 (.inl rfl)
  | k2 => exact E.otherRight _ _ _ _ h.1 h.2 (.inr rfl)
  | k2b => exact E.otherLeft _ _ _ _ h.1 h.2 (.inr rfl)
  | k3 => exact absurd rfl hk

/-- C103, what holds: class 3 is right to fourth order. -/
theorem c103_right_partial [AddCommGroup S] (N : Numerics A S) (E : Exact N) (ch : Ch) :
    (fopt N true).vertex.red ch .k3 = (upTo N 4).red ch .k3 := by
  have hb : ∀ c j, c ≠ ch ∨ j ≠ Cls.k1 → (bareV N).red c j = 0 := fun _ _ _ => rfl
  have h3 := (c102_right_partial N E ch).2.2
  rw [topt_debug N E, E.sameLeft ch .k3 _ (irreducibleIn ch (order N 2)) hb (.inr rfl)] at h3
  have h5 := E.addr ch .k3 (only ch (order N 2)) (irreducibleIn ch (order N 2)) (irreducibleIn ch (order N 2))
  rw [← two_split, E.sameRight ch .k3 _ _ (fun c j h => only_two E ch c j h) (.inr rfl), zero_add] at h5
  rw [fopt_debug N E, upTo]
  simp only [Vtx.plus]
  rw [show ((upTo N 3).red ch .k3) = 0 from h3.symm]
  rw [show (3 + 1) = 4 from rfl, order_four, E.sameLeft ch .k3 _ (order N 3) hb (.inr rfl),
    E.sameRight ch .k3 _ (irreducibleIn ch (order N 3)) hb (.inr rfl), h5]
  simp

/-- C103 is false: a concrete case. -/
theorem c103_fourth_order_refuted : ∃ N : Numerics Int Int, Exact N ∧ (order N 2).red .a .k1 = 1 ∧
    (fopt N true).vertex.red .a .k1 = 0 :=
  ⟨toy, toy_exact, by rw [order_two]; decide, c103_lost_refuted toy toy_exact .a .k1 (by decide)⟩

end Verif.Perturb
