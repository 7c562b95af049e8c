import Verif.Prop.Margp
import Verif.Prop.GoalSeek

/-!
# The optimizer for one pair (C82)
-/

set_option linter.unusedSectionVars false

namespace Carbon

open CarbonPair (pyDiv)
open UICurve (pyDiv_ok)
open CPC (Sound mirror)

namespace Opt

/-! ## One curve -/

theorem p_pos {c : CPC ℝ} (hs : Sound c) : 0 < c.p := div_pos hs.y_pos hs.hx

/-- At its own price a curve has nothing to trade. -/
theorem best_own {c : CPC ℝ} (hs : Sound c) : best c c.p = (0, 0) := by
  obtain ⟨hA, hK⟩ := best_allowed hs (p_pos hs)
  obtain ⟨h1, h2⟩ := best_le hs (p_pos hs) (allowed_zero hs)
  simp only [mul_zero, add_zero] at h1 h2
  have hx := hs.hx
  have hy := hs.y_pos
  have hxy := hs.xy
  generalize best c c.p = t at *
  obtain ⟨a, b⟩ := t
  have hX := hA.x
  have hY := hA.y
  dsimp only at *
  refine (h2 ?_).symm
  refine le_antisymm h1 ?_
  have e : c.p * a + b = (c.y * a + c.x * b) / c.x := by unfold CPC.p; field_simp
  rw [e]
  apply div_nonneg _ hx.le
  by_contra hn
  push Not at hn
  have hab : 0 < a * b := by nlinarith
  rcases pos_and_pos_or_neg_and_neg_of_mul_pos hab with ⟨ha, hb⟩ | ⟨ha, hb⟩
  · nlinarith [mul_pos hy ha, mul_pos hx hb]
  · nlinarith [mul_pos (neg_pos.2 ha) hY, mul_pos hx (neg_pos.2 hb)]

/-- A higher price takes base tokens out of the pool and puts quote tokens in. -/
theorem best_mono {c : CPC ℝ} (hs : Sound c) {p q : ℝ} (hp : 0 < p) (hpq : p ≤ q) :
    (best c q).1 ≤ (best c p).1 ∧ (best c p).2 ≤ (best c q).2 := by
  rcases hpq.eq_or_lt with rfl | h
  · exact ⟨le_rfl, le_rfl⟩
  · have hq := hp.trans h
    have h1 := (best_le hs hp (best_allowed hs hq).1).1
    have h2 := (best_le hs hq (best_allowed hs hp).1).1
    have h3 : (best c q).1 ≤ (best c p).1 := by
      by_contra hn
      push Not at hn
      nlinarith
    exact ⟨h3, by nlinarith⟩

theorem best_below {c : CPC ℝ} (hs : Sound c) {p : ℝ} (hp : 0 < p) (h : p ≤ c.p) : 0 ≤ (best c p).1 ∧ (best c p).2 ≤ 0 := by
  have := best_mono hs hp h
  rw [best_own hs] at this
  exact this

theorem best_above {c : CPC ℝ} (hs : Sound c) {p : ℝ} (h : c.p ≤ p) : (best c p).1 ≤ 0 ∧ 0 ≤ (best c p).2 := by
  have := best_mono hs (p_pos hs) h
  rw [best_own hs] at this
  exact this

/-- Below its price a curve that has quote tokens available sells some. -/
theorem best_below_strict {c : CPC ℝ} (hs : Sound c) {p : ℝ} (hp : 0 < p) (h : p < c.p) (hy : 0 < c.yAct) :
    0 < (best c p).1 ∧ (best c p).2 < 0 := by
  obtain ⟨h1, h2⟩ := best_below hs hp h.le
  obtain ⟨hA, hK⟩ := best_allowed hs hp
  have hne : (best c p).1 ≠ 0 ∨ (best c p).2 ≠ 0 := by
    by_contra hn
    push Not at hn
    obtain ⟨dx, dy, g1, g2⟩ := CPC.C40_price c hs p hp
    rw [best_eq hs hp, hn.1, hn.2] at g1
    obtain ⟨rfl, rfl⟩ : (0 : ℝ) = dx ∧ (0 : ℝ) = dy := by
      have := Except.ok.inj g1
      exact ⟨congrArg Prod.fst this, congrArg (fun t => t.2.1) this⟩
    simp only [add_zero] at g2
    have e : c.y / c.x = c.p := rfl
    rw [e] at g2
    rcases g2 with g | ⟨-, g⟩ | ⟨g, -⟩ <;> linarith
  have := opposite hs hA hK hne
  constructor
  · rcases h1.eq_or_lt with e | e
    · rw [← e, zero_mul] at this; exact absurd this (lt_irrefl _)
    · exact e
  · rcases h2.eq_or_lt with e | e
    · rw [e, mul_zero] at this; exact absurd this (lt_irrefl _)
    · exact e

theorem clamp_continuous (lo : ℝ) (hi : Option ℝ) : Continuous fun v : ℝ => CPC.clamp v lo hi := by
  have e : (fun v : ℝ => CPC.clamp v lo hi) = fun v => match hi with
      | none => max v lo
      | some h => min (max v lo) h := by
    funext v
    unfold CPC.clamp
    have e1 : (if v < lo then lo else v) = max v lo := by
      rw [max_def]
      split
      · rw [if_pos (le_of_lt (by assumption))]
      · rename_i h
        by_cases h' : v ≤ lo
        · rw [if_pos h']; exact le_antisymm h' (not_lt.1 h)
        · rw [if_neg h']
    dsimp only
    rw [e1]
    cases hi with
    | none => rfl
    | some h =>
      dsimp only
      rw [min_def]
      split
      · rename_i h1
        rw [if_neg (not_le.2 h1)]
      · rename_i h1
        rw [if_pos (not_lt.1 h1)]
  rw [e]
  cases hi with
  | none => fun_prop
  | some h => fun_prop

theorem best_continuous {c : CPC ℝ} (hs : Sound c) : ContinuousOn (fun p => best c p) (Set.Ioi 0) := by
  have e : Set.EqOn (fun p => best c p) (fun p => (CPC.clamp (Real.sqrt c.k / Real.sqrt p) c.xMin c.xMax - c.x,
      CPC.clamp (Real.sqrt c.k * Real.sqrt p) c.yMin c.yMax - c.y)) (Set.Ioi 0) := by
    intro p hp
    have hp : (0 : ℝ) < p := hp
    have hsq : Real.sqrt p ≠ 0 := (Real.sqrt_pos.2 hp).ne'
    have h : c.dxdyfromp (some p) = .ok (CPC.clamp (Real.sqrt c.k / Real.sqrt p) c.xMin c.xMax - c.x,
        CPC.clamp (Real.sqrt c.k * Real.sqrt p) c.yMin c.yMax - c.y, p) := by
      unfold CPC.dxdyfromp CPC.xyfromp Curve.sqrtE
      simp only [Option.getD_some]
      rw [if_neg (not_lt.2 hp.le), Py.ok_bind, if_neg (not_lt.2 hs.hk.le), Py.ok_bind]
      show ((pyDiv (Real.sqrt c.k) (Real.sqrt p) >>= _) >>= _) = _
      rw [pyDiv_ok hsq, Py.ok_bind]
      rfl
    rw [best_eq hs hp] at h
    have := Except.ok.inj h
    have e1 := congrArg Prod.fst this
    have e2 := congrArg (fun t => t.2.1) this
    exact Prod.ext e1 e2
  refine ContinuousOn.congr ?_ e
  have hs1 : ContinuousOn (fun p : ℝ => Real.sqrt p) (Set.Ioi 0) := Real.continuous_sqrt.continuousOn
  have hd : ContinuousOn (fun p : ℝ => Real.sqrt c.k / Real.sqrt p) (Set.Ioi 0) :=
    continuousOn_const.div hs1 fun p hp => (Real.sqrt_pos.2 hp).ne'
  have hm : ContinuousOn (fun p : ℝ => Real.sqrt c.k * Real.sqrt p) (Set.Ioi 0) := continuousOn_const.mul hs1
  have k1 := (clamp_continuous c.xMin c.xMax).comp_continuousOn hd
  have k2 := (clamp_continuous c.yMin c.yMax).comp_continuousOn hm
  exact (k1.sub continuousOn_const).prodMk (k2.sub continuousOn_const)

theorem mirror_sound {c : CPC ℝ} (hs : Sound c) : Sound (mirror c) := (CPC.C41_mirror c hs).2.1

theorem allowed_mirror {c : CPC ℝ} (hs : Sound c) {t : ℝ × ℝ} (h : Allowed (mirror c) t) : Allowed c (t.2, t.1) := by
  have hy : (mirror c).y = c.x := CPC.mirror_y hs.hk.ne' hs.hx.ne'
  obtain ⟨h1, h2, h3, h4, h5⟩ := h
  rw [hy] at h2 h3
  exact ⟨h2, h1, by rw [mul_comm]; exact h3, h5, h4⟩

theorem allowed_to_mirror {c : CPC ℝ} (hs : Sound c) {t : ℝ × ℝ} (h : Allowed c t) : Allowed (mirror c) (t.2, t.1) := by
  have hy : (mirror c).y = c.x := CPC.mirror_y hs.hk.ne' hs.hx.ne'
  obtain ⟨h1, h2, h3, h4, h5⟩ := h
  exact ⟨h2, by rw [hy]; exact h1, by rw [hy, mul_comm]; exact h3, h5, h4⟩

/-- The trade of a curve to the reciprocal price is that of the mirrored curve to the price, with the sides exchanged. -/
theorem best_mirror {c : CPC ℝ} (hs : Sound c) {p : ℝ} (hp : 0 < p) : best c (1 / p) = ((best (mirror c) p).2, (best (mirror c) p).1) := by
  have hr : 0 < 1 / p := one_div_pos.2 hp
  have hA := allowed_mirror hs (best_allowed (mirror_sound hs) hp).1
  obtain ⟨h1, h2⟩ := best_le hs hr hA
  have h3 := (best_le (mirror_sound hs) hp (allowed_to_mirror hs (best_allowed hs hr).1)).1
  dsimp only at h1 h2 h3
  refine (h2 (le_antisymm h1 ?_)).symm
  have e1 : 1 / p * (best c (1 / p)).1 + (best c (1 / p)).2 = (p * (best c (1 / p)).2 + (best c (1 / p)).1) / p := by field_simp; ring
  have e2 : 1 / p * (best (mirror c) p).2 + (best (mirror c) p).1 = (p * (best (mirror c) p).1 + (best (mirror c) p).2) / p := by field_simp; ring
  rw [e1, e2]
  exact div_le_div_of_nonneg_right h3 hp.le

/-! ## Wrapped curves -/

/-- The curve in the direction in which the optimizer looks at it. -/
noncomputable def actual (c : CPC ℝ) : CPC ℝ := if c.pairo.isprimary TPair.prettify then c else mirror c

theorem actual_sound {c : CPC ℝ} (hs : Sound c) : Sound (actual c) := by
  unfold actual
  split
  · exact hs
  · exact mirror_sound hs

/-- The wrapped form of one curve. -/
noncomputable def wrap1 (c : CPC ℝ) : Wrapped ℝ := if c.pairo.isprimary TPair.prettify then .plain c else .inv ⟨c⟩

theorem wrap1_p {c : CPC ℝ} (hs : Sound c) : wrappedP (wrap1 c) = .ok (actual c).p := by
  unfold wrap1 actual
  split
  · rfl
  · exact (CPC.C41_view c hs).2.2.2.2.2.2.2.2.2.2.2.2.2.1

theorem wrap1_pair {c : CPC ℝ} (hs : Sound c) : wrappedPair (wrap1 c) = (actual c).pair := by
  unfold wrap1 actual
  split
  · rfl
  · exact (CPC.C41_view c hs).2.2.1

theorem wrap1_pairo {c : CPC ℝ} (hs : Sound c) : (wrap1 c).pairo = (actual c).pairo := by
  unfold wrap1 actual
  split
  · rfl
  · exact (CPC.C41_view c hs).2.2.2.1

theorem wrap1_trade {c : CPC ℝ} (hs : Sound c) {p : ℝ} (hp : 0 < p) : wrappedTrade p (wrap1 c) = .ok (best (actual c) p) := by
  unfold wrap1 actual
  split
  · show (c.dxdyfromp (some p) >>= _) = _
    rw [best_eq hs hp]
    rfl
  · show ((⟨c⟩ : Inv ℝ).dxdyfromp (some p) >>= _) = _
    rw [(CPC.C41_to_price c hs p hp false).2, best_eq (mirror_sound hs) hp]
    rfl

theorem mapM_ok {α β : Type} {l : List α} {f : α → Py β} {g : α → β} (h : ∀ a ∈ l, f a = .ok (g a)) : l.mapM f = .ok (l.map g) := by
  induction l with
  | nil => rfl
  | cons a l ih =>
    rw [List.mapM_cons, h a (by simp), Py.ok_bind, ih fun b hb => h b (List.mem_cons_of_mem _ hb), Py.ok_bind]
    rfl

/-- The sums of the trades of all curves to a price, in the direction in which the optimizer looks at them. -/
noncomputable def sums (cs : List (CPC ℝ)) (p : ℝ) : ℝ × ℝ :=
  ((cs.map fun c => (best (actual c) p).1).sum, (cs.map fun c => (best (actual c) p).2).sum)

theorem sumTrade_ok {cs : List (CPC ℝ)} (hs : ∀ c ∈ cs, Sound c) {p : ℝ} (hp : 0 < p) : sumTrade (cs.map wrap1) p = .ok (sums cs p) := by
  unfold sumTrade
  rw [mapM_ok (g := fun w => (match wrappedTrade p w with | .ok r => r | .error _ => (0, 0)))]
  · rw [Py.ok_bind]
    simp only [List.map_map]
    unfold sums
    congr 3
    · apply List.map_congr_left
      intro c hc
      simp only [Function.comp]
      rw [wrap1_trade (hs c hc) hp]
    · apply List.map_congr_left
      intro c hc
      simp only [Function.comp]
      rw [wrap1_trade (hs c hc) hp]
  · intro w hw
    obtain ⟨c, hc, rfl⟩ := List.mem_map.1 hw
    rw [wrap1_trade (hs c hc) hp]

theorem mapM_p {cs : List (CPC ℝ)} (hs : ∀ c ∈ cs, Sound c) : (cs.map wrap1).mapM wrappedP = .ok (cs.map fun c => (actual c).p) := by
  induction cs with
  | nil => rfl
  | cons c cs ih =>
    rw [List.map_cons, List.mapM_cons, wrap1_p (hs c (by simp)), Py.ok_bind, ih fun d hd => hs d (List.mem_cons_of_mem _ hd), Py.ok_bind]
    rfl

theorem foldl_min_spec (l : List ℝ) (a : ℝ) : l.foldl min a ≤ a ∧ (∀ b ∈ l, l.foldl min a ≤ b) ∧ (l.foldl min a = a ∨ l.foldl min a ∈ l) := by
  induction l generalizing a with
  | nil => simp
  | cons b l ih =>
    rw [List.foldl_cons]
    obtain ⟨h1, h2, h3⟩ := ih (min a b)
    refine ⟨h1.trans (min_le_left _ _), ?_, ?_⟩
    · intro d hd
      rcases List.mem_cons.1 hd with rfl | hd
      · exact h1.trans (min_le_right _ _)
      · exact h2 d hd
    · rcases h3 with h | h
      · rw [h]
        rcases min_choice a b with e | e
        · exact Or.inl e
        · rw [e]; exact Or.inr (by simp)
      · exact Or.inr (List.mem_cons_of_mem _ h)

theorem foldl_max_spec (l : List ℝ) (a : ℝ) : a ≤ l.foldl max a ∧ (∀ b ∈ l, b ≤ l.foldl max a) ∧ (l.foldl max a = a ∨ l.foldl max a ∈ l) := by
  induction l generalizing a with
  | nil => simp
  | cons b l ih =>
    rw [List.foldl_cons]
    obtain ⟨h1, h2, h3⟩ := ih (max a b)
    refine ⟨(le_max_left _ _).trans h1, ?_, ?_⟩
    · intro d hd
      rcases List.mem_cons.1 hd with rfl | hd
      · exact (le_max_right _ _).trans h1
      · exact h2 d hd
    · rcases h3 with h | h
      · rw [h]
        rcases max_choice a b with e | e
        · exact Or.inl e
        · rw [e]; exact Or.inr (by simp)
      · exact Or.inr (List.mem_cons_of_mem _ h)

theorem seekLoop_congr {F : ℝ → Py ℝ} {g : ℝ → ℝ} (n : Nat) {a b : ℝ} (hab : a ≤ b) (h : ∀ x, a ≤ x → x ≤ b → F x = .ok (g x)) :
    seekLoop F n a b = seekLoop (total g) n a b := by
  induction n generalizing a b with
  | zero => rfl
  | succ n ih =>
    have m1 : a ≤ (a + b) / 2 := by linarith
    have m2 : (a + b) / 2 ≤ b := by linarith
    unfold seekLoop
    dsimp only
    rw [h _ m1 m2, h a le_rfl hab]
    simp only [total]
    rw [ih m1 fun x h1 h2 => h x h1 (h2.trans m2), ih m2 fun x h1 h2 => h x (m1.trans h1) h2]

theorem goalseek_congr {F : ℝ → Py ℝ} {g : ℝ → ℝ} (n : Nat) {a b : ℝ} (hab : a ≤ b) (h : ∀ x, a ≤ x → x ≤ b → F x = .ok (g x)) :
    goalseek F a b n = goalseek (total g) a b n := by
  unfold goalseek
  rw [h a le_rfl hab, h b hab le_rfl, seekLoop_congr n hab h]
  rfl

/-! ## The optimizer -/

/-- The optimizer for one pair has finished with the result. -/
def Runs (cs : List (CPC ℝ)) (target : Str) (r : Py (Simple ℝ)) : Prop := ∃ n, simpleOptimizer cs target n = some r

/-- Valid curves, at least one, which all trade `X` against `Y`, in either direction; `X/Y` is the direction the optimizer prefers. -/
structure OnePair (cs : List (CPC ℝ)) (X Y : Str) : Prop where
  ne : cs ≠ []
  sound : ∀ c ∈ cs, Sound c
  diff : X ≠ Y
  pair : ∀ c ∈ cs, (c.tknb = X ∧ c.tknq = Y) ∨ (c.tknb = Y ∧ c.tknq = X)
  primary : (TPair.fromTokens X Y).isprimary TPair.prettify = true

/-- The price of `X` in units of `Y` on a curve. -/
noncomputable def priceIn (X : Str) (c : CPC ℝ) : ℝ := if c.tknb = X then c.p else 1 / c.p

theorem OnePair.actual_eq {cs : List (CPC ℝ)} {X Y : Str} (h : OnePair cs X Y) {c : CPC ℝ} (hc : c ∈ cs) :
    actual c = if c.tknb = X then c else mirror c := by
  unfold actual
  rcases h.pair c hc with ⟨h1, h2⟩ | ⟨h1, h2⟩
  · have : c.pairo.isprimary TPair.prettify = true := by
      show (TPair.fromTokens c.tknb c.tknq).isprimary _ = true
      rw [h1, h2]; exact h.primary
    rw [if_pos this, if_pos h1]
  · have : c.pairo.isprimary TPair.prettify = false := by
      show (TPair.fromTokens c.tknb c.tknq).isprimary _ = false
      rw [h1, h2, TPair.C44_exactly_one _ _ _ h.diff, h.primary]
      rfl
    rw [if_neg (by rw [this]; simp), if_neg (by rw [h1]; exact h.diff.symm)]

theorem OnePair.actual_tkn {cs : List (CPC ℝ)} {X Y : Str} (h : OnePair cs X Y) {c : CPC ℝ} (hc : c ∈ cs) :
    (actual c).tknb = X ∧ (actual c).tknq = Y := by
  rw [h.actual_eq hc]
  rcases h.pair c hc with ⟨h1, h2⟩ | ⟨h1, h2⟩
  · rw [if_pos h1]; exact ⟨h1, h2⟩
  · rw [if_neg (by rw [h1]; exact h.diff.symm)]
    obtain ⟨b, q, hp⟩ := (h.sound c hc).hpair
    obtain ⟨g1, g2, -⟩ := CPC.tkn_of_pair hp
    obtain ⟨k1, k2, -⟩ := CPC.tkn_of_pair (CPC.mirror_unpack hp)
    rw [k1, k2, ← g1, ← g2, h1, h2]
    exact ⟨rfl, rfl⟩

theorem OnePair.actual_pair {cs : List (CPC ℝ)} {X Y : Str} (h : OnePair cs X Y) {c : CPC ℝ} (hc : c ∈ cs) :
    (actual c).pair = X ++ '/' :: Y := by
  obtain ⟨b, q, hp⟩ := (actual_sound (h.sound c hc)).hpair
  obtain ⟨g1, g2, -, -, g3⟩ := CPC.tkn_of_pair hp
  obtain ⟨k1, k2⟩ := h.actual_tkn hc
  rw [g3, ← g1, ← g2, k1, k2]

theorem OnePair.actual_p {cs : List (CPC ℝ)} {X Y : Str} (h : OnePair cs X Y) {c : CPC ℝ} (hc : c ∈ cs) : (actual c).p = priceIn X c := by
  rw [h.actual_eq hc]
  unfold priceIn
  split
  · rfl
  · have hs := h.sound c hc
    have := (CPC.C41_view c hs).2.2.2.2.2.2.2.2.2.2.2.2.2.2
    exact eq_one_div_of_mul_eq_one_left this

/-- The trades of the curves, each in its own direction, to the price `p` of `X` in `Y`. -/
noncomputable def tradesTo (X : Str) (p : ℝ) (cs : List (CPC ℝ)) : List (ℝ × ℝ) := cs.map fun c => best c (if c.tknb = X then p else 1 / p)

theorem OnePair.sums_eq {cs : List (CPC ℝ)} {X Y : Str} (h : OnePair cs X Y) {p : ℝ} (hp : 0 < p) :
    sums cs p = (net X cs (tradesTo X p cs), net Y cs (tradesTo X p cs)) := by
  obtain ⟨-, hs, hd, hpair, hpr⟩ := h
  have key : ∀ c ∈ cs, best (actual c) p = if c.tknb = X then best c p else ((best c (1 / p)).2, (best c (1 / p)).1) := by
    intro c hc
    rw [OnePair.actual_eq ⟨List.ne_nil_of_mem hc, hs, hd, hpair, hpr⟩ hc]
    split
    · rfl
    · rw [best_mirror (hs c hc) hp]
  unfold sums
  clear hpr
  induction cs with
  | nil => rfl
  | cons c cs ih =>
    have ih := ih (fun d hd => hs d (List.mem_cons_of_mem _ hd)) (fun d hd => hpair d (List.mem_cons_of_mem _ hd))
      (fun d hd => key d (List.mem_cons_of_mem _ hd))
    have i1 := congrArg Prod.fst ih
    have i2 := congrArg Prod.snd ih
    dsimp only at i1 i2
    unfold tradesTo at *
    rw [List.map_cons, List.map_cons, List.sum_cons, List.sum_cons, i1, i2, key c (by simp), List.map_cons, net, net]
    rcases hpair c (by simp) with ⟨h1, h2⟩ | ⟨h1, h2⟩
    · rw [h1, h2]
      simp [hd, hd.symm]
    · rw [h1, h2]
      simp [hd, hd.symm]

/-- The lower end of the bracket. -/
noncomputable def lower (cs : List (CPC ℝ)) : ℝ := (cs.map fun c => (actual c).p).tail.foldl min ((cs.map fun c => (actual c).p).headD 0)

/-- The upper end of the bracket. -/
noncomputable def upper (cs : List (CPC ℝ)) : ℝ := (cs.map fun c => (actual c).p).tail.foldl max ((cs.map fun c => (actual c).p).headD 0)

theorem lower_spec {cs : List (CPC ℝ)} (h : cs ≠ []) : (∃ c ∈ cs, lower cs = (actual c).p) ∧ ∀ c ∈ cs, lower cs ≤ (actual c).p := by
  cases cs with
  | nil => exact absurd rfl h
  | cons c cs =>
    unfold lower
    rw [List.map_cons, List.tail_cons, List.headD_cons]
    obtain ⟨h1, h2, h3⟩ := foldl_min_spec (cs.map fun c => (actual c).p) (actual c).p
    constructor
    · rcases h3 with h | h
      · exact ⟨c, by simp, h⟩
      · obtain ⟨d, hd, e⟩ := List.mem_map.1 h
        exact ⟨d, List.mem_cons_of_mem _ hd, e.symm⟩
    · intro d hd
      rcases List.mem_cons.1 hd with rfl | hd
      · exact h1
      · exact h2 _ (List.mem_map.2 ⟨d, hd, rfl⟩)

theorem upper_spec {cs : List (CPC ℝ)} (h : cs ≠ []) : (∃ c ∈ cs, upper cs = (actual c).p) ∧ ∀ c ∈ cs, (actual c).p ≤ upper cs := by
  cases cs with
  | nil => exact absurd rfl h
  | cons c cs =>
    unfold upper
    rw [List.map_cons, List.tail_cons, List.headD_cons]
    obtain ⟨h1, h2, h3⟩ := foldl_max_spec (cs.map fun c => (actual c).p) (actual c).p
    constructor
    · rcases h3 with h | h
      · exact ⟨c, by simp, h⟩
      · obtain ⟨d, hd, e⟩ := List.mem_map.1 h
        exact ⟨d, List.mem_cons_of_mem _ hd, e.symm⟩
    · intro d hd
      rcases List.mem_cons.1 hd with rfl | hd
      · exact h1
      · exact h2 _ (List.mem_map.2 ⟨d, hd, rfl⟩)

theorem OnePair.bracket {cs : List (CPC ℝ)} {X Y : Str} (h : OnePair cs X Y) :
    0 < lower cs ∧ lower cs ≤ upper cs ∧ lower cs * (99 / 100) < upper cs * (101 / 100) := by
  obtain ⟨⟨c, hc, e⟩, hl⟩ := lower_spec h.ne
  obtain ⟨-, hu⟩ := upper_spec h.ne
  have h0 := p_pos (actual_sound (h.sound c hc))
  have h1 := (hl c hc).trans (hu c hc)
  rw [← e] at h0
  exact ⟨h0, h1, by linarith⟩

/-- The token that is not the target. -/
def other (X Y target : Str) : Str := if target = X then Y else X

/-- What the optimizer does, once its checks have passed. -/
theorem OnePair.simple_eq {cs : List (CPC ℝ)} {X Y : Str} (h : OnePair cs X Y) {target : Str} (ht : target = X ∨ target = Y) (n : Nat) :
    simpleOptimizer cs target n =
      match goalseek (total fun p => net (other X Y target) cs (tradesTo X p cs)) (lower cs * (99 / 100)) (upper cs * (101 / 100)) n with
      | none => none
      | some (.error e) => some (.error e)
      | some (.ok r) =>
        match sumTrade (cs.map wrap1) r.value with
        | .error e => some (.error e)
        | .ok v =>
          match r with
          | .raw _ => some (.error .attr)
          | .simple x => some (.ok ⟨cs.map wrap1, x, targetSide (decide (target = X)) v⟩) := by
  obtain ⟨b0, b1, b2⟩ := h.bracket
  have hw : Wrapped.wrap cs = cs.map wrap1 := rfl
  obtain ⟨c, ds, rfl⟩ := List.exists_cons_of_ne_nil h.ne
  have hall : ((c :: ds).map wrap1).all (fun v => decide (wrappedPair v = wrappedPair (wrap1 c))) = true := by
    rw [List.all_eq_true]
    intro v hv
    obtain ⟨d, hd, rfl⟩ := List.mem_map.1 hv
    rw [decide_eq_true_eq, wrap1_pair (h.sound d hd), wrap1_pair (h.sound c (by simp)), h.actual_pair hd, h.actual_pair (by simp)]
  obtain ⟨k1, k2⟩ := h.actual_tkn (c := c) (by simp)
  have kp : (wrap1 c).pairo = ⟨X, Y⟩ := by
    rw [wrap1_pairo (h.sound c (by simp))]
    show (⟨_, _⟩ : TPair) = _
    rw [k1, k2]
  have hF : ∀ x, lower (c :: ds) * (99 / 100) ≤ x → x ≤ upper (c :: ds) * (101 / 100) →
      (do let v ← sumTrade ((c :: ds).map wrap1) x; .ok (otherSide (decide (target = X)) v) : Py ℝ) =
        .ok (net (other X Y target) (c :: ds) (tradesTo X x (c :: ds))) := by
    intro x hx _
    have hx0 : 0 < x := lt_of_lt_of_le (by positivity) hx
    rw [sumTrade_ok h.sound hx0, Py.ok_bind, h.sums_eq hx0]
    unfold otherSide other
    by_cases e : target = X
    · simp [e]
    · simp [e]
  unfold simpleOptimizer
  rw [hw]
  dsimp only
  rw [List.map_cons] at hall ⊢
  dsimp only
  rw [if_neg (by rw [hall]; simp), ← List.map_cons, mapM_p h.sound]
  dsimp only
  rw [kp, if_neg (not_not.2 ht), ← goalseek_congr n b2.le hF]
  unfold lower upper
  dsimp only
  generalize goalseek (K := ℝ) _ _ _ n = g
  rcases g with _ | (e | r)
  · rfl
  · rfl
  · dsimp only
    generalize sumTrade (K := ℝ) _ r.value = w
    cases w with
    | error e => rfl
    | ok v => cases r <;> rfl

theorem sum_nonneg_map {cs : List (CPC ℝ)} {f : CPC ℝ → ℝ} (h : ∀ c ∈ cs, 0 ≤ f c) :
    0 ≤ (cs.map f).sum ∧ ((∃ c ∈ cs, 0 < f c) → 0 < (cs.map f).sum) := by
  induction cs with
  | nil => simp
  | cons c cs ih =>
    obtain ⟨h1, h2⟩ := ih fun d hd => h d (List.mem_cons_of_mem _ hd)
    have h0 := h c (by simp)
    rw [List.map_cons, List.sum_cons]
    refine ⟨by linarith, ?_⟩
    rintro ⟨d, hd, hp⟩
    rcases List.mem_cons.1 hd with rfl | hd
    · linarith
    · linarith [h2 ⟨d, hd, hp⟩]

theorem sum_nonpos_map {cs : List (CPC ℝ)} {f : CPC ℝ → ℝ} (h : ∀ c ∈ cs, f c ≤ 0) :
    (cs.map f).sum ≤ 0 ∧ ((∃ c ∈ cs, f c < 0) → (cs.map f).sum < 0) := by
  induction cs with
  | nil => simp
  | cons c cs ih =>
    obtain ⟨h1, h2⟩ := ih fun d hd => h d (List.mem_cons_of_mem _ hd)
    have h0 := h c (by simp)
    rw [List.map_cons, List.sum_cons]
    refine ⟨by linarith, ?_⟩
    rintro ⟨d, hd, hp⟩
    rcases List.mem_cons.1 hd with rfl | hd
    · linarith
    · linarith [h2 ⟨d, hd, hp⟩]

theorem OnePair.net_eq {cs : List (CPC ℝ)} {X Y : Str} (h : OnePair cs X Y) {p : ℝ} (hp : 0 < p) :
    net X cs (tradesTo X p cs) = (cs.map fun c => (best (actual c) p).1).sum ∧
      net Y cs (tradesTo X p cs) = (cs.map fun c => (best (actual c) p).2).sum := by
  have e := h.sums_eq hp
  unfold sums at e
  have e1 := congrArg Prod.fst e
  have e2 := congrArg Prod.snd e
  exact ⟨e1.symm, e2.symm⟩

theorem OnePair.ends {cs : List (CPC ℝ)} {X Y : Str} (h : OnePair cs X Y) (target : Str) :
    net (other X Y target) cs (tradesTo X (lower cs * (99 / 100)) cs) * net (other X Y target) cs (tradesTo X (upper cs * (101 / 100)) cs) ≤ 0 := by
  obtain ⟨b0, b1, b2⟩ := h.bracket
  have hlo : 0 < lower cs * (99 / 100) := by positivity
  obtain ⟨e1, e2⟩ := h.net_eq hlo
  obtain ⟨e3, e4⟩ := h.net_eq (hlo.trans b2)
  obtain ⟨-, hl⟩ := lower_spec h.ne
  obtain ⟨-, hu⟩ := upper_spec h.ne
  have l : ∀ c ∈ cs, 0 ≤ (best (actual c) (lower cs * (99 / 100))).1 ∧ (best (actual c) (lower cs * (99 / 100))).2 ≤ 0 := by
    intro c hc
    exact best_below (actual_sound (h.sound c hc)) hlo (by linarith [hl c hc])
  have u : ∀ c ∈ cs, (best (actual c) (upper cs * (101 / 100))).1 ≤ 0 ∧ 0 ≤ (best (actual c) (upper cs * (101 / 100))).2 := by
    intro c hc
    exact best_above (actual_sound (h.sound c hc)) (by linarith [hu c hc])
  unfold other
  by_cases e : target = X
  · rw [if_pos e, e2, e4]
    exact mul_nonpos_of_nonpos_of_nonneg (sum_nonpos_map fun c hc => (l c hc).2).1 (sum_nonneg_map fun c hc => (u c hc).2).1
  · rw [if_neg e, e1, e3]
    exact mul_nonpos_of_nonneg_of_nonpos (sum_nonneg_map fun c hc => (l c hc).1).1 (sum_nonpos_map fun c hc => (u c hc).1).1

/-- If some curve has `Y` available, the curves sell some at the lower end. -/
theorem OnePair.lower_ne {cs : List (CPC ℝ)} {X Y : Str} (h : OnePair cs X Y) (target : Str) (hy : ∃ c ∈ cs, 0 < (actual c).yAct) :
    net (other X Y target) cs (tradesTo X (lower cs * (99 / 100)) cs) ≠ 0 := by
  obtain ⟨b0, b1, b2⟩ := h.bracket
  have hlo : 0 < lower cs * (99 / 100) := by positivity
  obtain ⟨e1, e2⟩ := h.net_eq hlo
  obtain ⟨-, hl⟩ := lower_spec h.ne
  have l : ∀ c ∈ cs, 0 ≤ (best (actual c) (lower cs * (99 / 100))).1 ∧ (best (actual c) (lower cs * (99 / 100))).2 ≤ 0 := by
    intro c hc
    exact best_below (actual_sound (h.sound c hc)) hlo (by linarith [hl c hc])
  obtain ⟨d, hd, hdy⟩ := hy
  have k := best_below_strict (actual_sound (h.sound d hd)) hlo (by linarith [hl d hd]) hdy
  unfold other
  by_cases e : target = X
  · rw [if_pos e, e2]
    exact ((sum_nonpos_map fun c hc => (l c hc).2).2 ⟨d, hd, k.2⟩).ne
  · rw [if_neg e, e1]
    exact ((sum_nonneg_map fun c hc => (l c hc).1).2 ⟨d, hd, k.1⟩).ne'

/-- The value of the goal seek is within the bracket. -/
theorem seekLoop_within (f : ℝ → ℝ) (n : Nat) {a b : ℝ} (hab : a ≤ b) {r : Found ℝ} (h : seekLoop (total f) n a b = some (.ok r)) :
    a ≤ r.value ∧ r.value ≤ b := by
  induction n generalizing a b with
  | zero =>
    unfold seekLoop at h
    split at h
    · cases h
    · cases h
      constructor <;> (show _ ≤ _; simp only [Found.value]; linarith)
  | succ n ih =>
    have m1 : a ≤ (a + b) / 2 := by linarith
    have m2 : (a + b) / 2 ≤ b := by linarith
    unfold seekLoop at h
    simp only [total] at h
    split at h
    · split at h
      · cases h
        exact ⟨m1, m2⟩
      · split at h
        · obtain ⟨k1, k2⟩ := ih m1 h
          exact ⟨k1, k2.trans m2⟩
        · obtain ⟨k1, k2⟩ := ih m2 h
          exact ⟨m1.trans k1, k2⟩
    · cases h
      exact ⟨m1, m2⟩

/-- What the optimizer makes of the result of the goal seek. -/
noncomputable def outcome (cs : List (CPC ℝ)) (X target : Str) : Found ℝ → Py (Simple ℝ)
  | .raw _ => .error .attr
  | .simple x => .ok ⟨cs.map wrap1, x, net target cs (tradesTo X x cs)⟩

theorem OnePair.seeks {cs : List (CPC ℝ)} {X Y : Str} (h : OnePair cs X Y) {target : Str} (ht : target = X ∨ target = Y) :
    ∃ r : Found ℝ, Seeks (total fun p => net (other X Y target) cs (tradesTo X p cs)) (lower cs * (99 / 100)) (upper cs * (101 / 100)) (.ok r) ∧
      (∀ s, Runs cs target s ↔ s = outcome cs X target r) ∧
      lower cs * (99 / 100) ≤ r.value ∧ r.value ≤ upper cs * (101 / 100) := by
  obtain ⟨b0, b1, b2⟩ := h.bracket
  have hlo : 0 < lower cs * (99 / 100) := by positivity
  obtain ⟨r, hr⟩ := (C50_terminates (fun p => net (other X Y target) cs (tradesTo X p cs)) (lower cs * (99 / 100)) (upper cs * (101 / 100))).2
    (h.ends target)
  have hw : lower cs * (99 / 100) ≤ r.value ∧ r.value ≤ upper cs * (101 / 100) := by
    obtain ⟨n, hn⟩ := hr
    unfold goalseek total at hn
    dsimp only at hn
    rw [if_neg (not_lt.2 (h.ends target))] at hn
    exact seekLoop_within _ n b2.le hn
  have hv : 0 < r.value := hlo.trans_le hw.1
  have ev : ∀ n, goalseek (total fun p => net (other X Y target) cs (tradesTo X p cs)) (lower cs * (99 / 100)) (upper cs * (101 / 100)) n = some (.ok r) →
      simpleOptimizer cs target n = some (outcome cs X target r) := by
    intro n hn
    rw [h.simple_eq ht, hn]
    dsimp only
    rw [sumTrade_ok h.sound hv, h.sums_eq hv]
    cases r with
    | raw x => rfl
    | simple x =>
      dsimp only [Found.value, targetSide, outcome]
      by_cases e : target = X
      · simp [e]
      · have e' : target = Y := ht.resolve_left e
        have : ¬ Y = X := h.diff.symm
        simp [e', this]
  refine ⟨r, hr, fun s => ⟨?_, ?_⟩, hw⟩
  · rintro ⟨n, hn⟩
    have hs : ∃ g, goalseek (total fun p => net (other X Y target) cs (tradesTo X p cs)) (lower cs * (99 / 100)) (upper cs * (101 / 100)) n = some g := by
      rw [h.simple_eq ht] at hn
      cases hg : goalseek (total fun p => net (other X Y target) cs (tradesTo X p cs)) (lower cs * (99 / 100)) (upper cs * (101 / 100)) n with
      | none => rw [hg] at hn; cases hn
      | some g => exact ⟨g, rfl⟩
    obtain ⟨g, hg⟩ := hs
    have := C50_unique ⟨n, hg⟩ hr
    subst this
    rw [ev n hg] at hn
    exact (Option.some.inj hn).symm
  · rintro rfl
    obtain ⟨n, hn⟩ := hr
    exact ⟨n, ev n hn⟩

/-! ## Theorems -/

/-- C82: on valid curves of one pair the optimizer finishes, and it never refuses; the only exception that it can raise is the
`AttributeError` after an exact hit of the goal seek. -/
theorem C82_finishes_partial {cs : List (CPC ℝ)} {X Y : Str} (h : OnePair cs X Y) {target : Str} (ht : target = X ∨ target = Y) :
    ∃ r, Runs cs target r ∧ (r = .error .attr ∨ ∃ s, r = .ok s) ∧ ∀ r', Runs cs target r' → r' = r := by
  obtain ⟨r, -, h2, -⟩ := h.seeks ht
  refine ⟨_, (h2 _).2 rfl, ?_, fun r' h' => (h2 _).1 h'⟩
  cases r with
  | raw x => exact Or.inl rfl
  | simple x => exact Or.inr ⟨_, rfl⟩

/-- C82: the price found is not more than one percent outside of the range of the curves' prices; the result is the net amount of the
target token if every curve trades to that price. -/
theorem C82_price {cs : List (CPC ℝ)} {X Y : Str} (h : OnePair cs X Y) {target : Str} (ht : target = X ∨ target = Y) {s : Simple ℝ}
    (hr : Runs cs target (.ok s)) :
    (∃ c ∈ cs, priceIn X c * (99 / 100) ≤ s.price) ∧ (∃ c ∈ cs, s.price ≤ priceIn X c * (101 / 100)) ∧
      s.result = net target cs (tradesTo X s.price cs) ∧ Wrapped.unwrap s.curves = cs := by
  obtain ⟨r, -, h2, h3, h4⟩ := h.seeks ht
  have e := (h2 _).1 hr
  obtain ⟨⟨c, hc, e1⟩, -⟩ := lower_spec h.ne
  obtain ⟨⟨d, hd, e2⟩, -⟩ := upper_spec h.ne
  cases r with
  | raw x => cases e
  | simple x =>
    cases e
    refine ⟨⟨c, hc, ?_⟩, ⟨d, hd, ?_⟩, rfl, (Wrapped.C41_wrap cs).1⟩
    · rw [← h.actual_p hc, ← e1]; exact h3
    · rw [← h.actual_p hd, ← e2]; exact h4

/-- C82: the trades behind the result are such that no other trades which the pools accept, and which take at least as much of the other
token out of the pools, take more of the target token out. -/
theorem C82_optimal {cs : List (CPC ℝ)} {X Y : Str} (h : OnePair cs X Y) {target : Str} (ht : target = X ∨ target = Y) {s : Simple ℝ}
    (hr : Runs cs target (.ok s)) {w : List (ℝ × ℝ)} (hw : w.length = cs.length) (ha : ∀ cv ∈ cs.zip w, Allowed cv.1 cv.2)
    (hn : net (other X Y target) cs w ≤ net (other X Y target) cs (tradesTo X s.price cs)) :
    s.result ≤ net target cs w ∧ (s.result = net target cs w → w = tradesTo X s.price cs) := by
  obtain ⟨⟨c, hc, hp⟩, -, h3, -⟩ := C82_price h ht hr
  have hp0 : 0 < s.price := by
    refine lt_of_lt_of_le ?_ hp
    rw [← h.actual_p hc]
    have := p_pos (actual_sound (h.sound c hc))
    positivity
  have hX : priceOf [(X, s.price)] X = s.price := by simp [priceOf, dictGet]
  have hY : priceOf [(X, s.price)] Y = 1 := by simp [priceOf, dictGet, h.diff]
  have hpos : ∀ t, 0 < priceOf [(X, s.price)] t := by
    intro t
    by_cases e : X = t
    · rw [← e, hX]; exact hp0
    · simp [priceOf, dictGet, e]
  have hto : cs.map (tradeOf [(X, s.price)]) = tradesTo X s.price cs := by
    unfold tradesTo
    apply List.map_congr_left
    intro d hd
    unfold tradeOf
    rcases h.pair d hd with ⟨k1, k2⟩ | ⟨k1, k2⟩
    · rw [k1, k2, hX, hY, if_pos rfl, div_one]
    · rw [k1, k2, hX, hY, if_neg h.diff.symm]
  obtain ⟨k1, k2⟩ := worth_le hpos cs h.sound w hw ha
  have hT : ∀ c ∈ cs, c.tknb ∈ ({X, Y} : Finset Str) ∧ c.tknq ∈ ({X, Y} : Finset Str) := by
    intro c hc
    rcases h.pair c hc with ⟨k1, k2⟩ | ⟨k1, k2⟩ <;> rw [k1, k2] <;> simp
  rw [← worth _ _ _ _ hT, ← worth _ _ _ _ hT, hto, Finset.sum_pair h.diff, Finset.sum_pair h.diff, hX, hY] at k1 k2
  rw [h3]
  unfold other at hn
  rcases ht with rfl | rfl
  · rw [if_pos rfl] at hn
    have : net target cs (tradesTo target s.price cs) ≤ net target cs w := by
      have : s.price * net target cs (tradesTo target s.price cs) ≤ s.price * net target cs w := by linarith
      exact le_of_mul_le_mul_left this hp0
    refine ⟨this, fun e => k2 ?_⟩
    rw [e]
    linarith
  · rw [if_neg h.diff.symm] at hn
    have : s.price * net X cs w ≤ s.price * net X cs (tradesTo X s.price cs) := mul_le_mul_of_nonneg_left hn hp0.le
    refine ⟨by linarith, fun e => k2 ?_⟩
    rw [← e]
    linarith

theorem tradesTo_continuous {cs : List (CPC ℝ)} {X Y : Str} (h : OnePair cs X Y) (t : Str) (ht : t = X ∨ t = Y) :
    ContinuousOn (fun p => net t cs (tradesTo X p cs)) (Set.Ioi 0) := by
  have hsum : ∀ f : CPC ℝ → ℝ → ℝ, (∀ c ∈ cs, ContinuousOn (f c) (Set.Ioi 0)) → ContinuousOn (fun p => (cs.map fun c => f c p).sum) (Set.Ioi 0) := by
    intro f hf
    clear h
    induction cs with
    | nil => simpa using continuousOn_const
    | cons c cs ih =>
      simp only [List.map_cons, List.sum_cons]
      exact (hf c (by simp)).add (ih fun d hd => hf d (List.mem_cons_of_mem _ hd))
  rcases ht with rfl | rfl
  · refine (hsum (fun c p => (best (actual c) p).1) fun c hc => ?_).congr fun p hp => (h.net_eq hp).1
    exact continuous_fst.comp_continuousOn (best_continuous (actual_sound (h.sound c hc)))
  · refine (hsum (fun c p => (best (actual c) p).2) fun c hc => ?_).congr fun p hp => (h.net_eq hp).2
    exact continuous_snd.comp_continuousOn (best_continuous (actual_sound (h.sound c hc)))

/-- The amount of `Y` available in a pool. -/
def available (Y : Str) (c : CPC ℝ) : ℝ := if c.tknb = Y then c.xAct else c.yAct

/-- C82: if some pool has `Y` available, the price found is within half the tolerance of a price at which the other token balances
exactly. -/
theorem C82_balance_partial {cs : List (CPC ℝ)} {X Y : Str} (h : OnePair cs X Y) (hy : ∃ c ∈ cs, 0 < available Y c) {target : Str}
    (ht : target = X ∨ target = Y) {s : Simple ℝ} (hr : Runs cs target (.ok s)) :
    ∃ p, 0 < p ∧ |s.price - p| ≤ 1 / 2 * (1 / 10 ^ 6) ∧ net (other X Y target) cs (tradesTo X p cs) = 0 := by
  obtain ⟨b0, b1, b2⟩ := h.bracket
  have hlo : 0 < lower cs * (99 / 100) := by positivity
  have hy' : ∃ c ∈ cs, 0 < (actual c).yAct := by
    obtain ⟨c, hc, h0⟩ := hy
    refine ⟨c, hc, ?_⟩
    rw [h.actual_eq hc]
    unfold available at h0
    rcases h.pair c hc with ⟨k1, k2⟩ | ⟨k1, k2⟩
    · rw [if_pos k1]
      rwa [if_neg (by rw [k1]; exact h.diff)] at h0
    · rw [if_neg (by rw [k1]; exact h.diff.symm)]
      rwa [if_pos k1] at h0
  obtain ⟨r, h1, h2, -⟩ := h.seeks ht
  have e := (h2 _).1 hr
  have hot : other X Y target = X ∨ other X Y target = Y := by
    unfold other
    split
    · exact Or.inr rfl
    · exact Or.inl rfl
  obtain ⟨x, k1, k2, k3, k4⟩ := C50_root_partial b2.le (h.lower_ne target hy')
    ((tradesTo_continuous h _ hot).mono fun x hx => hlo.trans_le hx.1) h1
  cases r with
  | raw y => cases e
  | simple y =>
    cases e
    exact ⟨x, hlo.trans_le k1, k4, k3⟩

/-- C82 fails: on a single curve the goal seek hits the curve's price exactly and the optimizer raises `AttributeError`, although
nothing is to be traded. -/
theorem C82_single_violated {c : CPC ℝ} {X Y : Str} (h : OnePair [c] X Y) {target : Str} (ht : target = X ∨ target = Y)
    (hp : 1 / 10 ^ 6 < (actual c).p / 50) : ∀ r, Runs [c] target r ↔ r = .error .attr := by
  have el : lower [c] = (actual c).p := rfl
  have eu : upper [c] = (actual c).p := rfl
  have hmid : ((actual c).p * (99 / 100) + (actual c).p * (101 / 100)) / 2 = (actual c).p := by ring
  have hs := actual_sound (h.sound c (by simp))
  have h0 : net (other X Y target) [c] (tradesTo X (actual c).p [c]) = 0 := by
    obtain ⟨e1, e2⟩ := h.net_eq (p_pos hs)
    unfold other
    by_cases e : target = X
    · rw [if_pos e, e2]; simp [best_own hs]
    · rw [if_neg e, e1]; simp [best_own hs]
  obtain ⟨r, h1, h2, -⟩ := h.seeks ht
  have hg : Seeks (total fun p => net (other X Y target) [c] (tradesTo X p [c])) (lower [c] * (99 / 100)) (upper [c] * (101 / 100))
      (.ok (.raw (actual c).p)) := by
    refine ⟨1, ?_⟩
    unfold goalseek seekLoop total
    dsimp only
    rw [if_neg (not_lt.2 (h.ends target)), el, eu, hmid, h0, if_pos (by unfold seekEps; linarith), if_pos rfl]
  have := C50_unique h1 hg
  cases this
  exact h2

theorem seekLoop_upper (f : ℝ → ℝ) (n : Nat) {a b : ℝ} (hab : a < b) (h : ∀ x, a < x → x ≤ b → 0 < f x) (ha : 0 ≤ f a) {r : Found ℝ}
    (hr : seekLoop (total f) n a b = some (.ok r)) : ∃ x, r = .simple x ∧ b - x ≤ 1 / 2 * (1 / 10 ^ 6) := by
  induction n generalizing a b with
  | zero =>
    unfold seekLoop at hr
    split at hr
    · cases hr
    · rename_i hn
      cases hr
      unfold seekEps at hn
      exact ⟨_, rfl, by linarith⟩
  | succ n ih =>
    obtain ⟨m1, m2⟩ := mid_between hab
    have hc := h _ m1 m2.le
    unfold seekLoop at hr
    simp only [total] at hr
    split at hr
    · rw [if_neg hc.ne', if_neg (not_lt.2 (mul_nonneg ha hc.le))] at hr
      exact ih m2 (fun x h1 h2 => h x (m1.trans h1) h2) hc.le hr
    · rename_i hn
      cases hr
      unfold seekEps at hn
      exact ⟨_, rfl, by linarith⟩

/-- Two pools at the prices 4 and 1, without any of `B` available. -/
noncomputable def noQuote : List (CPC ℝ) := [⟨100, 5, 5, 0, "A/B".toList, none, []⟩, ⟨100, 10, 10, 0, "A/B".toList, none, []⟩]

theorem noQuote_pair : OnePair noQuote "A".toList "B".toList := by
  have hp : CarbonPair.unpack "A/B".toList = .ok ("A".toList, "B".toList) := by decide
  refine ⟨by simp [noQuote], ?_, by decide, ?_, by decide⟩
  · intro c hc
    simp only [noQuote, List.mem_cons, List.not_mem_nil, or_false] at hc
    rcases hc with rfl | rfl <;>
      exact ⟨by norm_num, by norm_num, by norm_num, by norm_num, by norm_num, by norm_num [CPC.y], _, _, hp⟩
  · intro c hc
    simp only [noQuote, List.mem_cons, List.not_mem_nil, or_false] at hc
    rcases hc with rfl | rfl <;> exact Or.inl ⟨rfl, rfl⟩

/-- C82 fails: if no pool has `B` available, nothing can be bought with it, but the optimizer goes to the upper end of the bracket and
pays in more than ten of it. -/
theorem C82_balance_violated : ∃ s, Runs noQuote "A".toList (.ok s) ∧ 4 ≤ s.price ∧ 10 ≤ net "B".toList noQuote (tradesTo "A".toList s.price noQuote) := by
  have h := noQuote_pair
  obtain ⟨b0, b1, b2⟩ := h.bracket
  have hpair : ∀ c ∈ noQuote, actual c = c := by
    intro c hc
    rw [h.actual_eq hc]
    simp only [noQuote, List.mem_cons, List.not_mem_nil, or_false] at hc
    rcases hc with rfl | rfl <;> exact if_pos rfl
  let c1 : CPC ℝ := ⟨100, 5, 5, 0, "A/B".toList, none, []⟩
  let c2 : CPC ℝ := ⟨100, 10, 10, 0, "A/B".toList, none, []⟩
  have m1 : c1 ∈ noQuote := by simp [noQuote, c1]
  have m2 : c2 ∈ noQuote := by simp [noQuote, c2]
  have hs1 : Sound c1 := h.sound _ m1
  have hs2 : Sound c2 := h.sound _ m2
  have p1 : c1.p = 4 := by norm_num [CPC.p, CPC.y, c1]
  have p2 : c2.p = 1 := by norm_num [CPC.p, CPC.y, c2]
  have el : lower noQuote = 1 := by
    show min (actual c1).p (actual c2).p = 1
    rw [hpair _ m1, hpair _ m2, p1, p2]
    norm_num
  have eu : upper noQuote = 4 := by
    show max (actual c1).p (actual c2).p = 4
    rw [hpair _ m1, hpair _ m2, p1, p2]
    norm_num
  have hf : ∀ p, 0 < p → net "B".toList noQuote (tradesTo "A".toList p noQuote) = (best c1 p).2 + (best c2 p).2 := by
    intro p hp
    rw [(h.net_eq hp).2]
    show (best (actual c1) p).2 + ((best (actual c2) p).2 + 0) = _
    rw [hpair _ m1, hpair _ m2, add_zero]
  have ya : ∀ c : CPC ℝ, Sound c → c.yAct = 0 → ∀ p, 0 < p → 0 ≤ (best c p).2 := by
    intro c hs hc p hp
    have := (best_allowed hs hp).1.ya
    rw [hc, zero_add] at this
    exact this
  have b4 : (best c2 4).2 = 10 := by
    have hA : Allowed c2 (-5, 10) := by
      refine ⟨?_, ?_, ?_, ?_, ?_⟩ <;> norm_num [c2, CPC.y]
    obtain ⟨k1, k2⟩ := best_le hs2 (p := 4) (by norm_num) hA
    obtain ⟨⟨g1, g2, g3, -, -⟩, -⟩ := best_allowed hs2 (p := 4) (by norm_num)
    have e1 : c2.x = 10 := rfl
    have e2 : c2.y = 10 := by norm_num [c2, CPC.y]
    have e3 : c2.k = 100 := rfl
    rw [e1] at g1
    rw [e2] at g2
    rw [e1, e2, e3] at g3
    have := k2 (le_antisymm k1 (by
      dsimp only
      by_contra hn
      push Not at hn
      nlinarith [sq_nonneg (4 * (10 + (best c2 4).1) - (10 + (best c2 4).2))]))
    rw [← this]
  have key : ∀ p, 4 ≤ p → 10 ≤ net "B".toList noQuote (tradesTo "A".toList p noQuote) := by
    intro p hp
    rw [hf p (by linarith)]
    have h1 := ya c1 hs1 rfl p (by linarith)
    have h2 := (best_mono hs2 (p := 4) (by norm_num) hp).2
    rw [b4] at h2
    linarith
  have pos : ∀ p, 1 < p → 0 < net "B".toList noQuote (tradesTo "A".toList p noQuote) := by
    intro p hp
    have hp0 : 0 < p := by linarith
    rw [hf p hp0]
    have h1 := ya c1 hs1 rfl p hp0
    have h2 := (best_above hs2 (p := p) (by rw [p2]; exact hp.le)).2
    rcases h2.eq_or_lt with e | e
    · exfalso
      obtain ⟨dx, dy, g1, g2⟩ := CPC.C40_price c2 hs2 p hp0
      rw [best_eq hs2 hp0, ← e] at g1
      have i1 := congrArg (fun t => t.2.1) (Except.ok.inj g1)
      have i2 := congrArg Prod.fst (Except.ok.inj g1)
      dsimp only at i1 i2
      obtain ⟨hA, hK⟩ := best_allowed hs2 hp0
      have e1 : c2.x = 10 := rfl
      have e2 : c2.y = 10 := by norm_num [c2, CPC.y]
      have e3 : c2.k = 100 := rfl
      rw [e1, e2, e3, ← e] at hK
      have i3 : (best c2 p).1 = 0 := by linarith
      rw [← i1, ← i2, i3, e1, e2] at g2
      have e4 : c2.xAct = 10 := rfl
      rcases g2 with g | ⟨g, -⟩ | ⟨-, g⟩
      · norm_num at g; linarith
      · rw [e4] at g; norm_num at g
      · norm_num at g; linarith
    · linarith
  obtain ⟨r, ⟨n, hn⟩, k2, k3, k4⟩ := h.seeks (target := "A".toList) (Or.inl rfl)
  have hot : other "A".toList "B".toList "A".toList = "B".toList := rfl
  rw [hot, el, eu] at hn
  have hn' : seekLoop (total fun p => net "B".toList noQuote (tradesTo "A".toList p noQuote)) n (1 * (99 / 100)) (4 * (101 / 100)) = some (.ok r) := by
    have hends := h.ends "A".toList
    rw [hot, el, eu] at hends
    unfold goalseek at hn
    simp only [total] at hn
    rw [if_neg (not_lt.2 hends)] at hn
    exact hn
  have hx : ∃ x, r = .simple x ∧ 4 * (101 / 100) - x ≤ 1 / 2 * (1 / 10 ^ 6) := by
    cases n with
    | zero =>
      unfold seekLoop seekEps at hn'
      rw [if_pos (by norm_num)] at hn'
      cases hn'
    | succ n =>
      unfold seekLoop seekEps at hn'
      simp only [total] at hn'
      have hmid : ((1 : ℝ) * (99 / 100) + 4 * (101 / 100)) / 2 = 503 / 200 := by norm_num
      have hm := pos (503 / 200) (by norm_num)
      have ha : net "B".toList noQuote (tradesTo "A".toList (1 * (99 / 100)) noQuote) = 0 := by
        rw [hf _ (by norm_num)]
        have h1 := ya c1 hs1 rfl (1 * (99 / 100)) (by norm_num)
        have h2 := ya c2 hs2 rfl (1 * (99 / 100)) (by norm_num)
        have h3 := (best_below hs1 (p := 1 * (99 / 100)) (by norm_num) (by rw [p1]; norm_num)).2
        have h4 := (best_below hs2 (p := 1 * (99 / 100)) (by norm_num) (by rw [p2]; norm_num)).2
        linarith
      rw [if_pos (by norm_num), hmid, if_neg hm.ne', ha, zero_mul, if_neg (lt_irrefl _)] at hn'
      exact seekLoop_upper _ n (by norm_num) (fun x h1 _ => pos x (by linarith)) hm.le hn'
  obtain ⟨x, rfl, hx⟩ := hx
  have hx4 : 4 ≤ x := by linarith
  exact ⟨_, (k2 _).2 rfl, hx4, key x hx4⟩

/-- The hypotheses hold for the two pools of the examples of the marginal price optimizer, which have `B` available. -/
theorem twoPools_pair : OnePair (twoPools ℝ).curves "A".toList "B".toList ∧ ∃ c ∈ (twoPools ℝ).curves, 0 < available "B".toList c := by
  have hin := twoPools_input
  rw [twoPools_curves]
  refine ⟨⟨by simp, ?_, by decide, ?_, by decide⟩, ?_⟩
  · rw [← twoPools_curves]; exact hin.sound
  · intro c hc
    simp only [List.mem_cons, List.not_mem_nil, or_false] at hc
    rcases hc with rfl | rfl <;> exact Or.inl ⟨rfl, rfl⟩
  · refine ⟨_, by simp; left; rfl, ?_⟩
    show (0 : ℝ) < if _ then _ else _
    norm_num [CPC.tknb, splitSlash]

example : ∃ r, Runs (twoPools ℝ).curves "B".toList r ∧ (r = .error .attr ∨ ∃ s, r = .ok s) := by
  obtain ⟨r, h1, h2, -⟩ := C82_finishes_partial twoPools_pair.1 (target := "B".toList) (Or.inr rfl)
  exact ⟨r, h1, h2⟩

/-- A single pool for which the optimizer raises. -/
example : ∃ (c : CPC ℝ), OnePair [c] "A".toList "B".toList ∧ ∀ r, Runs [c] "A".toList r ↔ r = .error .attr := by
  have h : OnePair [(⟨100, 5, 5, 20, "A/B".toList, none, []⟩ : CPC ℝ)] "A".toList "B".toList := by
    have hp : CarbonPair.unpack "A/B".toList = .ok ("A".toList, "B".toList) := by decide
    refine ⟨by simp, ?_, by decide, ?_, by decide⟩
    · intro c hc
      rw [List.mem_singleton.1 hc]
      exact ⟨by norm_num, by norm_num, by norm_num, by norm_num, by norm_num, by norm_num [CPC.y], _, _, hp⟩
    · intro c hc
      rw [List.mem_singleton.1 hc]
      exact Or.inl ⟨rfl, rfl⟩
  refine ⟨_, h, C82_single_violated h (Or.inl rfl) ?_⟩
  rw [h.actual_p (by simp)]
  have : priceIn "A".toList (⟨100, 5, 5, 20, "A/B".toList, none, []⟩ : CPC ℝ) = 4 := by
    have e : (⟨100, 5, 5, 20, "A/B".toList, none, []⟩ : CPC ℝ).tknb = "A".toList := rfl
    unfold priceIn
    rw [if_pos e]
    norm_num [CPC.p, CPC.y]
  rw [this]
  norm_num

end Opt

end Carbon
