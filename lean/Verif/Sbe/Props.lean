import Verif.Sbe.Lemmas
import Mathlib.Tactic.FinCases

/-! C131: composition of single-boson-exchange objects. -/
namespace Verif.Sbe

open Keldysh Index

/-- C131: leaving out one dimension, the flat numbers below the size without it are unpacked into exactly the
multi-indices whose entry in that dimension is zero, each once and in row-major order. -/
theorem c131_skip (dims : List Nat) (idim : Nat) (hd : idim < dims.length) :
    (∀ t < (dims.eraseIdx idim).prod, ∃ rest, InRange rest (dims.eraseIdx idim) ∧
      rowMajor rest (dims.eraseIdx idim) = t ∧ skip t dims idim = some (rest.insertIdx idim 0)) ∧
    ∀ rest, InRange rest (dims.eraseIdx idim) → ∃ t < (dims.eraseIdx idim).prod,
      skip t dims idim = some (rest.insertIdx idim 0) := by
  constructor
  · intro t ht
    obtain ⟨h1, h2⟩ := multLoop_spec t _ ht
    refine ⟨_, h1, h2, ?_⟩
    conv_lhs => rw [← h2]
    exact skip_rowMajor dims _ idim hd h1
  · intro rest hr
    exact ⟨_, rowMajor_lt hr, skip_rowMajor dims rest idim hd hr⟩

/-- Two rows of three columns, with the middle one of three dimensions left out. -/
example : (List.range 6).map (fun t => skip t [2, 5, 3] 1) =
    [some [0, 0, 0], some [0, 0, 1], some [0, 0, 2], some [1, 0, 0], some [1, 0, 1], some [1, 0, 2]] := by decide

/-! ### Keldysh indices -/

/-- C131 (layout): the expanded buffers have one spin component and one internal index; the Keldysh component runs fastest,
then the fermionic frequencies, then the bosonic one. -/
theorem c131_layout (nW nV nK i j l k : Nat) :
    pos [0, i, k, 0] (dims1 nW nK) = i * nK + k ∧
    pos [0, i, j, k, 0] (dims2 nW nV nK) = (i * nV + j) * nK + k ∧
    pos [0, i, j, l, k, 0] (dims3 nW nV nK) = ((i * nV + j) * nV + l) * nK + k ∧
    Index.getFlatSize (dims1 nW nK) = some (nW * nK) ∧
    Index.getFlatSize (dims2 nW nV nK) = some (nW * nV * nK) ∧
    Index.getFlatSize (dims3 nW nV nK) = some (nW * nV * nV * nK) := by
  simp [pos, dims1, dims2, dims3, Index.getFlatIndex, Index.flatLoop, Index.getFlatSize]

theorem rotate_pack : ∀ (ch : Ch), ch ∈ [Ch.a, Ch.p, Ch.t] → ∀ (left : Bool) (a b c d : Fin 2),
    rotate ch left (pack a b c d) = match ch, left with
      | .a, true => pack a d c b
      | .a, false => pack c b a d
      | .p, true => pack a b c d
      | .p, false => pack c d a b
      | .t, true => pack d a c b
      | .t, false => pack b c a d := by decide +kernel

theorem unrotate_pack : ∀ (ch : Ch), ch ∈ [Ch.a, Ch.p, Ch.t] → ∀ (left : Bool) (a b c d : Fin 2),
    unrotate ch left (pack a b c d) = match ch, left with
      | .a, true => pack a d c b
      | .a, false => pack c b a d
      | .p, true => pack a b c d
      | .p, false => pack c d a b
      | .t, true => pack b d c a
      | .t, false => pack c a b d := by decide +kernel

theorem mem_ch (ch : Ch) : ch ∈ [Ch.a, Ch.p, Ch.t] := by cases ch <;> simp

theorem pack_row (a b c d y z : Fin 2) : (pack a b c d : Nat) % 4 + 4 * (2 * (y : Nat) + z) = pack y z c d := by
  have := a.2; have := b.2; have := c.2; have := d.2
  simp only [pack]; omega

theorem pack_col (a b c d y z : Fin 2) : (2 * (y : Nat) + z) + 4 * ((pack a b c d : Nat) / 4) = pack a b y z := by
  have := c.2; have := d.2; have := y.2; have := z.2
  simp only [pack]; omega

variable {Q : Type} [CommRing Q]

theorem sum_four (f : Nat → Q) : ∑ k ∈ Finset.range 4, f k = ∑ y : Fin 2, ∑ z : Fin 2, f (2 * (y : Nat) + z) := by
  simp only [Finset.sum_range_succ, Finset.sum_range_zero, Fin.sum_univ_two, Fin.val_zero, Fin.val_one]
  norm_num
  ring

/-- The product of the column-major matrices is the contraction along the internal legs. -/
theorem product (ch : Ch) (left : Bool) (X Y : Nat → Q) (a b c d : Fin 2) :
    toVec 4 (if left then mul 4 (toMat 4 fun k => Y (rotate ch left k)) (toMat 4 fun k => X (rotate ch left k))
      else mul 4 (toMat 4 fun k => X (rotate ch left k)) (toMat 4 fun k => Y (rotate ch left k)))
      (unrotate ch left (pack a b c d)) = chain ch X Y a b c d := by
  have hu := unrotate_pack ch (mem_ch ch)
  have hr := rotate_pack ch (mem_ch ch)
  cases ch <;> cases left <;> simp only [hu, toVec, mul, toMat, sum_four, pack_row, pack_col, hr, chain, if_true,
    Bool.false_eq_true, if_false]
  all_goals
    simp only [Fin.sum_univ_two]
    ring

theorem relabel_rotate (src dst : Ch) (left : Bool) (k : Nat) (hk : k < 16) :
    rotate src left (relabel src dst left k) = rotate dst left k ∧ relabel src dst left k < 16 := by
  obtain ⟨-, -, h1, -⟩ := c32_inverse dst left k hk
  obtain ⟨-, h2, -, h3⟩ := c32_inverse src left _ h1
  exact ⟨h2, h3⟩

theorem mul_congr16 {f f' h h' : Nat → Q} (e : ∀ k < 16, f k = h k) (e' : ∀ k < 16, f' k = h' k) :
    ∀ j < 16, toVec 4 (mul 4 (toMat 4 f) (toMat 4 f')) j = toVec 4 (mul 4 (toMat 4 h) (toMat 4 h')) j := by
  intro j hj
  unfold toVec mul toMat
  apply Finset.sum_congr rfl
  intro k hk
  have hk := Finset.mem_range.1 hk
  rw [e _ (by omega), e' _ (by omega)]

/-- Reading an entry of the table at itself. -/
def Exact (g : Grids Q) (iw iv : Nat) : Prop := g.w2 iw iv = [(iw, iv, 1)]

theorem readK2_node (g : Grids Q) (nK : Nat) (m : Mem Q) (iw iv k : Nat) (h : Exact g iw iv) :
    readK2 g nK m iw iv k = m (pos [0, iw, iv, k, 0] (dims2 g.nW g.nV nK)) := by
  rw [readK2, read, h]; simp

theorem in2 {g : Grids Q} {nK iw iv k : Nat} (h1 : iw < g.nW) (h2 : iv < g.nV) (h3 : k < nK) :
    InRange [0, iw, iv, k, 0] (dims2 g.nW g.nV nK) :=
  .cons (by omega) (.cons h1 (.cons h2 (.cons h3 (.cons (by omega) .nil))))

theorem in1 {g : Grids Q} {nK iw k : Nat} (h1 : iw < g.nW1) (h3 : k < nK) :
    InRange [0, iw, k, 0] (dims1 g.nW1 nK) :=
  .cons (by omega) (.cons h1 (.cons h3 (.cons (by omega) .nil)))

/-- The boson at the frequency of an entry: the interpolated function and the bare vertex. -/
def boson (g : Grids Q) (iw : Nat) (W : Nat → Nat → Q) (bare : Nat → Q) (k : Nat) : Q :=
  ((g.w1 iw).map fun p => p.2 * W p.1 k).sum + bare k

/-- C131: on the Keldysh contour, for every bubble channel, vertex channel, side and table. The expanded buffers hold
the components of `Λ` and `W` in the order of the bubble channel, and the bare vertex does not depend on the order of
the legs. The combination holds, in the same order, `Λ` and the boson joined along the internal legs of the channel of
the vertex: `Λ` left of the boson for K2, right of it for K2b. -/
theorem c131_combine (g : Grids Q) (bubble r : Ch) (left b : Bool) (lam w : Mem Q) (bare : Nat → Q) (iw iv iK : Nat)
    (hw : iw < g.nW) (hv : iv < g.nV) (hK : iK < 16) (hx : Exact g iw iv) (h1 : ∀ p ∈ g.w1 iw, p.1 < g.nW1)
    (Λ : Nat → Q) (W : Nat → Nat → Q)
    (hl : ∀ k < 16, lam (pos [0, iw, iv, k, 0] (dims2 g.nW g.nV 16)) = Λ (rotate bubble left k))
    (hW : ∀ i < g.nW1, ∀ k < 16, w (pos [0, i, k, 0] (dims1 g.nW1 16)) = W i (rotate bubble left k))
    (hb : ∀ k < 16, bare (rotate r left k) = bare k) (a₁ b₁ c₁ d₁ : Fin 2) (hi : rotate bubble left iK = pack a₁ b₁ c₁ d₁) :
    combine2 4 g bubble r left b lam w bare (pos [0, iw, iv, iK, 0] (dims2 g.nW g.nV 16)) =
      if b then chain r (boson g iw W bare) Λ a₁ b₁ c₁ d₁ else chain r Λ (boson g iw W bare) a₁ b₁ c₁ d₁ := by
  have l2 : 2 ≤ (dims2 g.nW g.nV 16).length := by simp [dims2]
  have l1 : 2 ≤ (dims1 g.nW1 16).length := by simp [dims1]
  obtain ⟨-, hj⟩ := relabel_rotate r bubble left iK hK
  have ej : relabel r bubble left iK = unrotate r left (pack a₁ b₁ c₁ d₁) := by rw [relabel, hi]
  unfold combine2
  dsimp only
  rw [show (4 * 4 : Nat) = 16 from rfl, fill_at l2 (in2 hw hv hK)]
  simp only [List.getD_cons_succ, List.getD_cons_zero]
  rw [readK2_node g 16 _ iw iv _ hx]
  rw [show dims2 g.nW g.nV 16 = [1, g.nW, g.nV] ++ [16, 1] from rfl,
    show [0, iw, iv, relabel r bubble left iK, 0] = [0, iw, iv] ++ [relabel r bubble left iK, 0] from rfl,
    show (3 : Nat) = [1, g.nW, g.nV].length from rfl,
    fillVec_at [0, iw, iv] [1, g.nW, g.nV] (.cons (by omega) (.cons hw (.cons hv .nil))) 16 _ hj _ (by simp)]
  simp only [List.cons_append, List.nil_append, List.getD_cons_succ, List.getD_cons_zero]
  have eb : ∀ k < 16, readK1 g 16 (fill (dims1 g.nW1 16) fun i => atK1 g 16 w (i.getD 1 0) (relabel bubble r left (i.getD 2 0))) iw k
      + bare k = boson g iw W bare (rotate r left k) := by
    intro k hk
    obtain ⟨e1, e2⟩ := relabel_rotate bubble r left k hk
    rw [boson, hb k hk, readK1, read, List.map_map]
    congr 2
    apply List.map_congr_left
    intro p hp
    simp only [Function.comp]
    rw [show [0, p.1] ++ [k, 0] = [0, p.1, k, 0] from rfl, fill_at l1 (in1 (h1 p hp) hk)]
    simp only [List.getD_cons_succ, List.getD_cons_zero, atK1]
    rw [hW p.1 (h1 p hp) _ e2, e1]
  have el : ∀ k < 16, readK2 g 16 (fill (dims2 g.nW g.nV 16) fun i => readK2 g 16 lam (i.getD 1 0) (i.getD 2 0)
      (relabel bubble r left (i.getD 3 0))) iw iv k = Λ (rotate r left k) := by
    intro k hk
    obtain ⟨e1, e2⟩ := relabel_rotate bubble r left k hk
    rw [readK2_node g 16 _ iw iv _ hx, fill_at l2 (in2 hw hv hk)]
    simp only [List.getD_cons_succ, List.getD_cons_zero]
    rw [readK2_node g 16 _ iw iv _ hx, hl _ e2, e1]
  rw [show [1, g.nW, g.nV, 16, 1] = dims2 g.nW g.nV 16 from rfl, ej]
  have hju : unrotate r left (pack a₁ b₁ c₁ d₁) < 16 := by rw [← ej]; exact hj
  have P1 := product r left Λ (boson g iw W bare) a₁ b₁ c₁ d₁
  have P2 := product r left (boson g iw W bare) Λ a₁ b₁ c₁ d₁
  cases b <;> cases left <;> simp only [Bool.false_eq_true, if_true, if_false] at P1 P2 ⊢
  · rw [← P1]; exact mul_congr16 el eb _ hju
  · rw [← P1]; exact mul_congr16 eb el _ hju
  · rw [← P2]; exact mul_congr16 eb el _ hju
  · rw [← P2]; exact mul_congr16 el eb _ hju

/-- C131: the same for the product of K2 with the second-leg vertex, read at the two fermionic frequencies. -/
theorem c131_third (g : Grids Q) (w3 : Nat → Nat → Nat → List (Nat × Nat × Nat × Q)) (bubble r : Ch) (left : Bool)
    (k2 lamb : Mem Q) (iw iv ivp iK : Nat) (hw : iw < g.nW) (hv : iv < g.nV) (hvp : ivp < g.nV) (hK : iK < 16)
    (hx : Exact g iw iv) (hxp : Exact g iw ivp) (hx3 : w3 iw iv ivp = [(iw, iv, ivp, 1)]) (X Λ : Nat → Q)
    (hk : ∀ k < 16, k2 (pos [0, iw, iv, k, 0] (dims2 g.nW g.nV 16)) = X (rotate bubble left k))
    (hl : ∀ k < 16, lamb (pos [0, iw, ivp, k, 0] (dims2 g.nW g.nV 16)) = Λ (rotate bubble left k))
    (a₁ b₁ c₁ d₁ : Fin 2) (hi : rotate bubble left iK = pack a₁ b₁ c₁ d₁) :
    combine3 4 g w3 bubble r left k2 lamb (pos [0, iw, iv, ivp, iK, 0] (dims3 g.nW g.nV 16)) =
      chain r X Λ a₁ b₁ c₁ d₁ := by
  have l2 : 2 ≤ (dims2 g.nW g.nV 16).length := by simp [dims2]
  have l3 : 2 ≤ (dims3 g.nW g.nV 16).length := by simp [dims3]
  obtain ⟨-, hj⟩ := relabel_rotate r bubble left iK hK
  have ej : relabel r bubble left iK = unrotate r left (pack a₁ b₁ c₁ d₁) := by rw [relabel, hi]
  have in3 : InRange [0, iw, iv, ivp, iK, 0] (dims3 g.nW g.nV 16) :=
    .cons (by omega) (.cons hw (.cons hv (.cons hvp (.cons hK (.cons (by omega) .nil)))))
  unfold combine3
  dsimp only
  rw [show (4 * 4 : Nat) = 16 from rfl, fill_at l3 in3]
  simp only [List.getD_cons_succ, List.getD_cons_zero]
  rw [read, hx3]
  simp only [List.map_cons, List.map_nil, List.sum_cons, List.sum_nil, one_mul, add_zero]
  rw [show dims3 g.nW g.nV 16 = [1, g.nW, g.nV, g.nV] ++ [16, 1] from rfl,
    show (4 : Nat) = [1, g.nW, g.nV, g.nV].length from rfl,
    fillVec_at [0, iw, iv, ivp] [1, g.nW, g.nV, g.nV] (.cons (by omega) (.cons hw (.cons hv (.cons hvp .nil)))) 16 _ hj _ (by simp)]
  simp only [List.cons_append, List.nil_append, List.getD_cons_succ, List.getD_cons_zero]
  have el : ∀ (m : Mem Q) (F : Nat → Q) (iv : Nat), iv < g.nV → Exact g iw iv →
      (∀ k < 16, m (pos [0, iw, iv, k, 0] (dims2 g.nW g.nV 16)) = F (rotate bubble left k)) →
      ∀ k < 16, readK2 g 16 (fill (dims2 g.nW g.nV 16) fun i => readK2 g 16 m (i.getD 1 0) (i.getD 2 0)
        (relabel bubble r left (i.getD 3 0))) iw iv k = F (rotate r left k) := by
    intro m F iv hv hx hl k hk
    obtain ⟨e1, e2⟩ := relabel_rotate bubble r left k hk
    rw [readK2_node g 16 _ iw iv _ hx, fill_at l2 (in2 hw hv hk)]
    simp only [List.getD_cons_succ, List.getD_cons_zero]
    rw [readK2_node g 16 _ iw iv _ hx, hl _ e2, e1]
  have e1 := el k2 X iv hv hx hk
  have e2 := el lamb Λ ivp hvp hxp hl
  have hju : unrotate r left (pack a₁ b₁ c₁ d₁) < 16 := by rw [← ej]; exact hj
  rw [ej, ← product r left X Λ a₁ b₁ c₁ d₁]
  cases left <;> simp only [Bool.false_eq_true, if_true, if_false]
  · exact mul_congr16 e1 e2 _ hju
  · exact mul_congr16 e2 e1 _ hju

/-- C131: for imaginary frequencies there is one component, and the combinations are products of numbers. -/
theorem c131_matsubara (g : Grids Q) (bubble r : Ch) (left b : Bool) (lam w : Mem Q) (bare : Nat → Q) (iw iv : Nat)
    (hw : iw < g.nW) (hv : iv < g.nV) (hx : Exact g iw iv) (h1 : ∀ p ∈ g.w1 iw, p.1 < g.nW1) :
    combine2 1 g bubble r left b lam w bare (pos [0, iw, iv, 0, 0] (dims2 g.nW g.nV 1)) =
      lam (pos [0, iw, iv, 0, 0] (dims2 g.nW g.nV 1)) *
        boson g iw (fun i _ => w (pos [0, i, 0, 0] (dims1 g.nW1 1))) bare 0 := by
  have l2 : 2 ≤ (dims2 g.nW g.nV 1).length := by simp [dims2]
  have l1 : 2 ≤ (dims1 g.nW1 1).length := by simp [dims1]
  have hr : ∀ s t, relabel s t left 0 = 0 := by
    have h := fun s => unrotate_pack s (mem_ch s) left 0 0 0 0
    have h' := fun s => rotate_pack s (mem_ch s) left 0 0 0 0
    have p0 : (0 : Nat) = pack (0 : Fin 2) (0 : Fin 2) (0 : Fin 2) (0 : Fin 2) := rfl
    intro s t
    have e1 : rotate t left 0 = 0 := by
      conv_lhs => rw [p0]
      rw [h']; cases t <;> cases left <;> rfl
    have e2 : unrotate s left 0 = 0 := by
      conv_lhs => rw [p0]
      rw [h]; cases s <;> cases left <;> rfl
    rw [relabel, e1, e2]
  unfold combine2
  dsimp only
  rw [show (1 * 1 : Nat) = 1 from rfl, fill_at l2 (in2 hw hv (by omega))]
  simp only [List.getD_cons_succ, List.getD_cons_zero, hr]
  rw [readK2_node g 1 _ iw iv _ hx]
  rw [show dims2 g.nW g.nV 1 = [1, g.nW, g.nV] ++ [1, 1] from rfl,
    show [0, iw, iv, 0, 0] = [0, iw, iv] ++ [0, 0] from rfl, show (3 : Nat) = [1, g.nW, g.nV].length from rfl,
    fillVec_at [0, iw, iv] [1, g.nW, g.nV] (.cons (by omega) (.cons hw (.cons hv .nil))) 1 0 (by omega) _ (by simp)]
  simp only [List.cons_append, List.nil_append, List.getD_cons_succ, List.getD_cons_zero]
  rw [show [1, g.nW, g.nV, 1, 1] = dims2 g.nW g.nV 1 from rfl]
  simp only [List.length_cons, List.length_nil, Nat.reduceAdd]
  have eb : readK1 g 1 (fill (dims1 g.nW1 1) fun i => atK1 g 1 w (i.getD 1 0) (relabel bubble r left (i.getD 2 0))) iw 0
      + bare 0 = boson g iw (fun i _ => w (pos [0, i, 0, 0] (dims1 g.nW1 1))) bare 0 := by
    rw [boson, readK1, read, List.map_map]
    congr 2
    apply List.map_congr_left
    intro p hp
    simp only [Function.comp]
    rw [show [0, p.1] ++ [0, 0] = [0, p.1, 0, 0] from rfl, fill_at l1 (in1 (h1 p hp) (by omega))]
    simp only [List.getD_cons_succ, List.getD_cons_zero, atK1, hr]
  have el : readK2 g 1 (fill (dims2 g.nW g.nV 1) fun i => readK2 g 1 lam (i.getD 1 0) (i.getD 2 0)
      (relabel bubble r left (i.getD 3 0))) iw iv 0 = lam (pos [0, iw, iv, 0, 0] (dims2 g.nW g.nV 1)) := by
    rw [readK2_node g 1 _ iw iv _ hx, fill_at l2 (in2 hw hv (by omega))]
    simp only [List.getD_cons_succ, List.getD_cons_zero, hr]
    rw [readK2_node g 1 _ iw iv _ hx]
  cases b <;> cases left <;> simp only [Bool.false_eq_true, if_true, if_false, toVec, mul, toMat, Finset.sum_range_one,
    Nat.mod_one, Nat.div_one, Nat.mul_zero, Nat.add_zero, el, eb] <;> ring

/-- The bare vertex of the Keldysh contour: one half of the interaction where an odd number of legs has the second
index; it does not depend on the order of the legs. -/
theorem c131_bare (ch : Ch) (left : Bool) (U : Q) : ∀ k < 16,
    (fun k => if (bit k 0 + bit k 1 + bit k 2 + bit k 3) % 2 = 1 then U else 0) (rotate ch left k) =
      (fun k => if (bit k 0 + bit k 1 + bit k 2 + bit k 3) % 2 = 1 then U else 0) k := by
  have h : ∀ (ch : Ch), ch ∈ [Ch.a, Ch.p, Ch.t] → ∀ (left : Bool), ∀ k < 16,
      (bit (rotate ch left k) 0 + bit (rotate ch left k) 1 + bit (rotate ch left k) 2 + bit (rotate ch left k) 3) % 2 =
        (bit k 0 + bit k 1 + bit k 2 + bit k 3) % 2 := by decide +kernel
  intro k hk
  simp only [h ch (mem_ch ch) left k hk]

/-- A table of one entry: the vertex counts its component, the boson is the bare vertex; the combination for channel
t, left of an a bubble, at component 3. -/
example : let g : Grids ℤ := ⟨1, 1, 1, fun _ => [(0, 1)], fun a b => [(a, b, 1)]⟩
    combine2 4 g .a .t true false (fun p => (rotate .a true p : Nat)) (fun _ => 0)
      (fun k => if (bit k 0 + bit k 1 + bit k 2 + bit k 3) % 2 = 1 then 1 else 0) 3 = 18 := by decide +kernel

end Verif.Sbe
