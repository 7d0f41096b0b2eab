import Verif.Reduce.LemmasDiscrete

/-! C127 for imaginary frequencies at finite temperature: the completed vertex is exact in every entry, except
for those that have no partner on the grid, which are set to zero. -/
namespace Verif.Reduce
open Verif.Symmetries
open Verif.Freqs (Ch Fr halfFloor legsM)

section
variable {R : Type} [CommRing R] [StarRing R]

/-- The value that belongs into an entry: the vertex (`h = false`) or its mirror image at the leg energies of
that entry. -/
def truthD (V : Vertex Int R) (h : Bool) (cls : Cls) (d : Dense) (c : Ch) (k : Key) : R :=
  V.val h c k.spin (bits k.iK) (legFun (legsM (.ch c) (freqD cls d k) (halfFloor (d.w k.iw))))

/-- A class does not depend on the frequencies it does not have. -/
def IndependentD (V : Vertex Int R) (cls : Cls) (c : Ch) : Prop :=
  match cls with
  | .k1 => ∀ h s α w v v' u u', V.val h c s α (legFun (legsM (.ch c) ⟨w, v, v'⟩ (halfFloor w))) =
      V.val h c s α (legFun (legsM (.ch c) ⟨w, u, u'⟩ (halfFloor w)))
  | .k2 => ∀ s α w v v' u', V.val false c s α (legFun (legsM (.ch c) ⟨w, v, v'⟩ (halfFloor w))) =
      V.val false c s α (legFun (legsM (.ch c) ⟨w, v, u'⟩ (halfFloor w)))
  | .k3 => True

/-- The entries without a partner: half of the bosonic frequency is rounded (`w` is not a multiple of `4 π T`)
and a fermionic frequency is the largest of the grid. -/
def NoPartner (cls : Cls) (d : Dense) (k : Key) : Prop :=
  d.w k.iw % 4 ≠ 0 ∧
  match cls with
  | .k1 => False
  | .k2 => k.iv + 1 = 2 * d.nf
  | .k3 => k.iv + 1 = 2 * d.nf ∨ k.ivp + 1 = 2 * d.nf

instance (cls : Cls) (d : Dense) (k : Key) : Decidable (NoPartner cls d k) := by
  unfold NoPartner; cases cls <;> infer_instance

/-- A schedule of the parallel loop. -/
structure ScheduleD (cls : Cls) (d : Dense) (l : List Event) : Prop where
  valid : ∀ e ∈ l, ValidD cls d e.key
  order : ∀ k : Key, ValidD cls d k → l.filter (fun e => e.key = k) = [.rd k, .wr k, .zr k]

theorem dropped_iff {cls : Cls} {d : Dense} {k : Key} (hv : ValidD cls d k) :
    dropped cls d k = true ↔ NoPartner cls d k := by
  have h4 : corr (d.w k.iw) = -2 ↔ d.w k.iw % 4 ≠ 0 := by
    unfold corr halfFloor Dense.w; omega
  have hv1 : ∀ j, j < 2 * d.nf → (d.v j = 2 * d.nf - 1 ↔ j + 1 = 2 * d.nf) := by
    intro j hj; unfold Dense.v; omega
  cases cls
  · simp [dropped, NoPartner]
  · simp only [dropped, NoPartner, decide_eq_true_eq]
    rw [v_low d _ hv.2.2.2.1 _ (w_even d _), h4, hv1 _ hv.2.2.2.1]
  · simp only [dropped, NoPartner, Bool.or_eq_true, decide_eq_true_eq]
    rw [v_low d _ hv.2.2.2.1 _ (w_even d _), v_low d _ hv.2.2.2.2 _ (w_even d _), h4, hv1 _ hv.2.2.2.1,
      hv1 _ hv.2.2.2.2]
    tauto

variable {out : (Key → R) → Ind Int → R} {cls : Cls} {cfg : Cfg} {d : Dense} {c : Ch}

theorem lookup_at {y : Ind Int} {k : Key} (hv : ValidD cls d k) (ha : AtD cls d y k) (s : Key → R) :
    lookup out cls d s y = s k := by
  obtain ⟨h1, h2, h3, h4⟩ := ha
  obtain ⟨v1, v2, v3, v4⟩ := hv
  have rw' := w_range d k.iw v2
  have inW : |y.f.w| ≤ 2 * (d.nb : Int) := by rw [h3, abs_le]; exact ⟨rw'.1, rw'.2⟩
  have iw : (y.f.w / 2 + d.nb).toNat = k.iw := by rw [h3]; unfold Dense.w; omega
  have fv : ∀ (z : Int) (j : Nat), j < 2 * d.nf → z = d.v j → |z| ≤ 2 * (d.nf : Int) - 1 ∧
      ((z - 1) / 2 + d.nf).toNat = j := by
    rintro z j hj rfl
    have := v_range d j hj
    refine ⟨by rw [abs_le]; exact ⟨this.1, this.2⟩, ?_⟩
    unfold Dense.v; omega
  rcases k with ⟨sp, kw, kv, kp, kK⟩
  cases cls
  · obtain ⟨rfl, rfl⟩ := v4
    simp only [lookup, inW, if_true]
    rw [h1, h2, iw]
  · obtain ⟨v5, rfl⟩ := v4
    obtain ⟨a, b⟩ := fv _ _ v5 h4
    simp only [lookup, inW, a, and_self, if_true]
    rw [h1, h2, iw, b]
  · obtain ⟨v5, v6⟩ := v4
    obtain ⟨a, b⟩ := fv _ _ v5 h4.1
    obtain ⟨a', b'⟩ := fv _ _ v6 h4.2
    simp only [lookup, inW, a, a', and_self, if_true]
    rw [h1, h2, iw, b, b']

theorem execD_append (s : St R) (l l' : List Event) :
    execD out cls cfg d c s (l ++ l') = execD out cls cfg d c (execD out cls cfg d c s l) l' := by
  simp [execD, List.foldl_append]

theorem eventD_other (s : St R) (e : Event) (k : Key) (h : e.key ≠ k) :
    (eventD out cls cfg d c s e).store k = s.store k ∧ (eventD out cls cfg d c s e).result k = s.result k := by
  have h' : k ≠ e.key := fun hh => h hh.symm
  rcases e with k' | k' | k' <;> unfold eventD <;> dsimp only [Event.key] at h' ⊢ <;> split <;>
    simp [Function.update_of_ne h']

theorem execD_other (l : List Event) (k : Key) (h : ∀ e ∈ l, e.key ≠ k) : ∀ (s : St R),
    (execD out cls cfg d c s l).store k = s.store k ∧ (execD out cls cfg d c s l).result k = s.result k := by
  induction l with
  | nil => exact fun s => ⟨rfl, rfl⟩
  | cons e l ih =>
      intro s
      have h1 := eventD_other (out := out) (cls := cls) (cfg := cfg) (d := d) (c := c) s e k (h e (by simp))
      have h2 := ih (fun e he => h e (by simp [he])) (eventD out cls cfg d c s e)
      exact ⟨h2.1.trans h1.1, h2.2.trans h1.2⟩

/-- Entries of the fundamental sector that are not set to zero keep their value. -/
theorem execD_keeps {k : Key} (hm : movesD cls cfg d c k = false) (hd : dropped cls d k = false)
    (l : List Event) : ∀ (s : St R), (execD out cls cfg d c s l).store k = s.store k := by
  induction l with
  | nil => exact fun s => rfl
  | cons e l ih =>
      intro s
      refine (ih _).trans ?_
      by_cases hk : e.key = k
      · subst hk
        rcases e with k' | k' | k' <;> unfold eventD <;> dsimp only [Event.key] at hm hd ⊢ <;> simp [hm, hd]
      · exact (eventD_other s e k hk).1

/-- Result of every schedule. -/
theorem execD_result (hk : cfg.keldysh = false) (s : St R) {l : List Event} (hl : ScheduleD cls d l) {k : Key}
    (hv : ValidD cls d k) :
    (dropped cls d k = true → (execD out cls cfg d c s l).store k = 0) ∧
    (dropped cls d k = false → ∃ src, Source cls cfg d c k src ∧ (execD out cls cfg d c s l).store k =
      if movesD cls cfg d c k then applyRead cfg (transfD cls cfg d c k) (s.store src) else s.store k) := by
  obtain ⟨A, B1, rfl, hA, hB1⟩ := split_filter _ _ _ _ (hl.order k hv)
  obtain ⟨B, C1, rfl, hB, hC1⟩ := split_filter _ _ _ _ hB1
  obtain ⟨C, D, rfl, hC, hD⟩ := split_filter _ _ _ _ hC1
  have ne : ∀ L : List Event, (∀ e ∈ L, decide (e.key = k) = false) → ∀ e ∈ L, e.key ≠ k :=
    fun L h e he => by simpa using h e he
  have hD' : ∀ e ∈ D, e.key ≠ k := by
    intro e he heq
    have : e ∈ D.filter (fun e => decide (e.key = k)) := List.mem_filter.2 ⟨he, by simpa using heq⟩
    rw [hD] at this; cases this
  rw [execD_append]
  have keeps : ∀ src, movesD cls cfg d c src = false → dropped cls d src = false →
      (execD out cls cfg d c s A).store src = s.store src := fun src h1 h2 => execD_keeps h1 h2 A s
  generalize hsA : execD out cls cfg d c s A = sA at *
  have hkA : sA.store k = s.store k := by rw [← hsA]; exact (execD_other A k (ne A hA) s).1
  have t1 : execD out cls cfg d c sA (Event.rd k :: (B ++ Event.wr k :: (C ++ Event.zr k :: D))) =
      execD out cls cfg d c (eventD out cls cfg d c (execD out cls cfg d c
        (eventD out cls cfg d c (execD out cls cfg d c (eventD out cls cfg d c sA (.rd k)) B) (.wr k)) C)
          (.zr k)) D := by
    simp [execD, List.foldl_append]
  rw [t1]
  generalize hsB : execD out cls cfg d c (eventD out cls cfg d c sA (.rd k)) B = sB
  have hkB := execD_other (out := out) (cls := cls) (cfg := cfg) (d := d) (c := c) B k (ne B hB)
    (eventD out cls cfg d c sA (.rd k))
  rw [hsB] at hkB
  generalize hsC : execD out cls cfg d c (eventD out cls cfg d c sB (.wr k)) C = sC
  have hkC := execD_other (out := out) (cls := cls) (cfg := cfg) (d := d) (c := c) C k (ne C hC)
    (eventD out cls cfg d c sB (.wr k))
  rw [hsC] at hkC
  rw [(execD_other (out := out) (cls := cls) (cfg := cfg) (d := d) (c := c) D k hD'
    (eventD out cls cfg d c sC (.zr k))).1]
  constructor
  · intro hd; simp [eventD, hd]
  · intro hd
    obtain ⟨src, hs⟩ := source_D hk c hv hd
    refine ⟨src, hs, ?_⟩
    have e1 : (eventD out cls cfg d c sC (.zr k)).store k = sC.store k := by simp [eventD, hd]
    rw [e1, hkC.1]
    by_cases hm : movesD cls cfg d c k = true
    · rw [if_pos hm]
      have e2 : (eventD out cls cfg d c sB (.wr k)).store k = sB.result k := by simp [eventD, hm]
      have e3 : (eventD out cls cfg d c sA (.rd k)).result k =
          applyRead cfg (transfD cls cfg d c k) (lookup out cls d sA.store (transfD cls cfg d c k)) := by
        unfold eventD
        dsimp only [Event.key]
        rw [if_pos hm]
        exact Function.update_self _ _ _
      rw [e2, hkB.2, e3, lookup_at hs.valid hs.at', keeps src hs.stays hs.kept]
    · have hm' : movesD cls cfg d c k = false := by simpa using hm
      rw [if_neg hm]
      have e2 : (eventD out cls cfg d c sB (.wr k)).store k = sB.store k := by simp [eventD, hm']
      have e3 : (eventD out cls cfg d c sA (.rd k)).store k = sA.store k := by simp [eventD, hm']
      rw [e2, hkB.1, e3, hkA]

/-- The value of an entry, expressed by the value of its source. -/
theorem truthD_source {V : Vertex Int R} (hk : cfg.keldysh = false) (hV : Sym cfg V) (hi : IndependentD V cls c)
    {k src : Key} (hv : ValidD cls d k) (hs : Source cls cfg d c k src) :
    truthD V false cls d c k = applyRead cfg (transfD cls cfg d c k)
      (truthD V (transfD cls cfg d c k).asym cls d c src) := by
  obtain ⟨i, hT⟩ := hs.code
  have hw : (indD cls d c k).f.w % 2 = 0 := by cases cls <;> exact w_even d k.iw
  have h1 := c35_value_rounded hk hV (x := indD cls d c k) hv.2.2.1 hv.1 hw i hT
  have ew : (freqD cls d k).w = d.w k.iw := by cases cls <;> rfl
  have e0 : applyRead cfg (indD cls d c k) (truthD V false cls d c k) = truthD V false cls d c k := by
    simp [applyRead, indD]
  have e1 : truthD V false cls d c k = applyRead cfg (indD cls d c k) (V.val (indD cls d c k).asym
      (indD cls d c k).ch (indD cls d c k).spin (bits (indD cls d c k).iK)
      (legFun (legsM (.ch (indD cls d c k).ch) (indD cls d c k).f (halfFloor (indD cls d c k).f.w)))) := by
    refine e0.symm.trans ?_
    show _ = applyRead cfg (indD cls d c k) (V.val false c k.spin (bits k.iK)
      (legFun (legsM (.ch c) (freqD cls d k) (halfFloor (freqD cls d k).w))))
    rw [ew]; rfl
  have hat := hs.at'
  rw [e1, h1, hs.ch, hat.1, hat.2.1]
  congr 1
  have h2 := hs.asym
  rcases hf : (transfD cls cfg d c k).f with ⟨w, v, v'⟩
  have h3 := hat.2.2.1
  have h4 := hat.2.2.2
  rw [hf] at h3 h4
  cases cls
  · simp only at h3
    rw [truthD, freqD, h3]
    exact hi _ _ _ _ _ _ _ _
  · simp only at h3 h4
    rw [h2 rfl, truthD, freqD, h3, h4]
    exact hi _ _ _ _ _ _
  · simp only at h3 h4
    rw [truthD, freqD, h3, h4.1, h4.2]

/-- C127, imaginary frequencies at finite temperature: with only the fundamental sector calculated, for every
schedule of the completion and whatever the extrapolation does, every entry that has a partner is exact and every
other entry is zero. With `DEBUG_SYMMETRIES` all entries are exact. -/
theorem c127_matsubara {V : Vertex Int R} (hk : cfg.keldysh = false) (hV : Sym cfg V) (hi : IndependentD V cls c)
    (hmir : cls ≠ .k2 → ∀ s α ν, V.val true c s α ν = V.val false c s α ν) (dbg : Bool)
    {l : List Event} (hl : ScheduleD cls d l) {k : Key} (hv : ValidD cls d k) :
    bubbleD dbg out cls cfg d c (truthD V false cls d c) l k =
      if dbg = false ∧ NoPartner cls d k then 0 else truthD V false cls d c k := by
  cases dbg
  · have e : bubbleD false out cls cfg d c (truthD V false cls d c) l k = (execD out cls cfg d c
        ⟨fun k => if neededD false cls d k then truthD V false cls d c k else 0, fun _ => 0⟩ l).store k := rfl
    rw [e]
    obtain ⟨r1, r2⟩ := execD_result (out := out) (c := c) hk
      ⟨fun k => if neededD false cls d k then truthD V false cls d c k else 0, fun _ => (0 : R)⟩ hl hv
    by_cases hd : dropped cls d k = true
    · rw [r1 hd, if_pos ⟨rfl, (dropped_iff hv).1 hd⟩]
    · have hn : ¬ NoPartner cls d k := fun h => hd ((dropped_iff hv).2 h)
      obtain ⟨src, hs, er⟩ := r2 (by simpa using hd)
      have hn' : ¬ (false = false ∧ NoPartner cls d k) := fun h => hn h.2
      rw [er, if_neg hn']
      dsimp only
      by_cases hm : movesD cls cfg d c k = true
      · rw [if_pos hm, if_pos hs.needed, truthD_source hk hV hi hv hs]
        congr 1
        cases ha : (transfD cls cfg d c k).asym
        · rfl
        · refine (hmir ?_ _ _ _).symm
          intro h2
          rw [hs.asym h2] at ha; cases ha
      · have hm' : movesD cls cfg d c k = false := by simpa using hm
        rw [if_neg hm]
        -- an entry that is not moved is its own source
        have hsel : selectD cls cfg c (freqD cls d k) = some 0 := by simpa [movesD] using hm'
        have ht : transfD cls cfg d c k = indD cls d c k := transfD_eq hsel rfl
        have hat := hs.at'
        rw [ht] at hat
        have hneed : neededD false cls d k = true := by
          have hn := hs.needed
          have hw : (indD cls d c k).f.w = d.w k.iw := by cases cls <;> rfl
          have h3 := hat.2.2.1
          rw [hw] at h3
          unfold neededD at hn ⊢
          rw [h3]
          cases cls
          · exact hn
          · have h4 : d.v k.iv = d.v src.iv := hat.2.2.2
            have : k.iv = src.iv := by unfold Dense.v at h4; omega
            simpa [this] using hn
          · have h4 : d.v k.iv = d.v src.iv := hat.2.2.2.1
            have : k.iv = src.iv := by unfold Dense.v at h4; omega
            simpa [this] using hn
        rw [if_pos hneed]
  · simp [bubbleD, neededD]

end

/-! ### The entries without a partner -/

/-- A vertex that only depends on the spin component. -/
def flat : Vertex Int ℤ := ⟨fun _ _ s _ _ => if s = 0 then 1 else -1⟩

theorem flat_sym (ph : Bool) : Sym ⟨false, ph, false⟩ flat where
  crossIn h c s α ν hs := by
    have : s = 0 ∨ s = 1 := by omega
    rcases this with rfl | rfl <;> simp [flat]
  crossOut h c s α ν hs := by
    have : s = 0 ∨ s = 1 := by omega
    rcases this with rfl | rfl <;> simp [flat]
  conjK h := by simp at h
  conjM _ h c s α ν _ := by simp [flat]
  ph h := by simp at h
  tr _ h c s α ν _ := by simp [flat]
  real _ _ _ := by simp

/-- All hypotheses of `c127_matsubara` are met: the sequential loop over a buffer with three bosonic and two
fermionic frequencies is a schedule. -/
example : ScheduleD .k2 ⟨1, 1⟩ (sequential ((List.range 2).flatMap fun s => (List.range 3).flatMap fun iw =>
    (List.range 2).map fun iv => ⟨s, iw, iv, 0, 0⟩)) where
  valid := by
    intro e he
    have : ∀ e ∈ sequential ((List.range 2).flatMap fun s => (List.range 3).flatMap fun iw =>
        (List.range 2).map fun iv => (⟨s, iw, iv, 0, 0⟩ : Key)),
        e.key.spin < 2 ∧ e.key.iw < 3 ∧ e.key.iK = 0 ∧ e.key.iv < 2 ∧ e.key.ivp = 0 := by decide +kernel
    exact this e he
  order := by
    rintro ⟨s, iw, iv, ivp, iK⟩ ⟨h1, h2, h3, h4, h5⟩
    dsimp only at h1 h2 h3 h4 h5
    subst h3 h5
    have : ∀ s < 2, ∀ iw < 3, ∀ iv < 2, (sequential ((List.range 2).flatMap fun s => (List.range 3).flatMap
        fun iw => (List.range 2).map fun iv => (⟨s, iw, iv, 0, 0⟩ : Key))).filter
          (fun e => e.key = ⟨s, iw, iv, 0, 0⟩) = [.rd ⟨s, iw, iv, 0, 0⟩, .wr ⟨s, iw, iv, 0, 0⟩,
            .zr ⟨s, iw, iv, 0, 0⟩] := by decide +kernel
    exact this s h1 iw h2 iv h4

/-- Wherever the grid has an entry without a partner, the completed vertex differs from the fully calculated one:
for a constant vertex the entry is zero instead of one. -/
theorem c127_rounding_refuted {cls : Cls} {d : Dense} {k : Key} (c : Ch) (hv : ValidD cls d k)
    (hn : NoPartner cls d k) (out : (Key → ℤ) → Ind Int → ℤ) {l : List Event} (hl : ScheduleD cls d l) :
    bubbleD false out cls ⟨false, true, false⟩ d c (truthD flat false cls d c) l k ≠
      bubbleD true out cls ⟨false, true, false⟩ d c (truthD flat false cls d c) l k := by
  have hi : IndependentD flat cls c := by cases cls <;> simp [IndependentD, flat]
  have hm : cls ≠ .k2 → ∀ s α ν, flat.val true c s α ν = flat.val false c s α ν := fun _ _ _ _ => rfl
  rw [c127_matsubara rfl (flat_sym true) hi hm false hl hv, c127_matsubara rfl (flat_sym true) hi hm true hl hv,
    if_pos ⟨rfl, hn⟩, if_neg (by simp)]
  unfold truthD flat
  dsimp only
  split <;> decide

/-- Such entries exist: `w = 2 π T`, `v = π T` on the smallest grid. -/
example : ValidD .k2 ⟨1, 1⟩ ⟨0, 2, 1, 0, 0⟩ ∧ NoPartner .k2 ⟨1, 1⟩ ⟨0, 2, 1, 0, 0⟩ := by
  refine ⟨by simp [ValidD], by simp [NoPartner, Dense.w]⟩

end Verif.Reduce
