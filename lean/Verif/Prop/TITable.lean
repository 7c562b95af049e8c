import Verif.Tools.TITable
import Verif.Prop.SimpleResult

/-!
# Tables of trade instructions (C139)
-/

set_option linter.unusedSectionVars false

namespace Carbon

open CarbonPair (pyDiv)
open CPC (Sound)

namespace Opt

section
variable {K : Type} [Field K] [LinearOrder K] [PySqrt K]

/-! ## First occurrences -/

theorem mem_firsts {l : List Str} {a : Str} : a ∈ firsts l ↔ a ∈ l := by
  induction l with
  | nil => exact Iff.rfl
  | cons b l ih =>
    unfold firsts
    rw [List.mem_cons, List.mem_filter, ih, List.mem_cons]
    by_cases h : a = b <;> simp [h]

theorem firsts_nodup (l : List Str) : (firsts l).Nodup := by
  induction l with
  | nil => exact List.nodup_nil
  | cons b l ih =>
    unfold firsts
    rw [List.nodup_cons]
    exact ⟨by simp, ih.filter _⟩

theorem firsts_filter (p : Str → Bool) (l : List Str) : (firsts l).filter p = firsts (l.filter p) := by
  induction l with
  | nil => rfl
  | cons b l ih =>
    show (b :: (firsts l).filter fun c => decide (c ≠ b)).filter p = _
    by_cases h : p b = true
    · rw [List.filter_cons_of_pos h, List.filter_cons_of_pos h]
      show b :: _ = b :: _
      rw [← ih, List.filter_filter, List.filter_filter]
      congr 1
      apply List.filter_congr
      intro x _
      exact Bool.and_comm _ _
    · rw [List.filter_cons_of_neg h, List.filter_cons_of_neg h]
      rw [← ih, List.filter_filter]
      apply List.filter_congr
      intro x _
      by_cases hx : x = b
      · subst hx; simp [h]
      · simp [hx]

theorem firsts_append (a b : List Str) : firsts (a ++ b) = firsts a ++ (firsts b).filter fun x => decide (x ∉ a) := by
  induction a with
  | nil => simp [firsts]
  | cons x a ih =>
    show x :: (firsts (a ++ b)).filter _ = x :: _ ++ _
    rw [ih, List.filter_append, List.filter_filter, List.cons_append]
    congr 2
    apply List.filter_congr
    intro y _
    by_cases h : y = x <;> simp [h]

theorem firsts_of_nodup {l : List Str} (h : l.Nodup) : firsts l = l := by
  induction l with
  | nil => rfl
  | cons a l ih =>
    rw [List.nodup_cons] at h
    unfold firsts
    rw [ih h.2, List.filter_eq_self.2]
    intro b hb
    rw [decide_eq_true_eq]
    rintro rfl
    exact h.1 hb

/-- They come in the order of their first occurrences. -/
theorem firsts_order (l : List Str) : (firsts l).Pairwise fun a b => l.idxOf a < l.idxOf b := by
  induction l with
  | nil => exact List.Pairwise.nil
  | cons x l ih =>
    unfold firsts
    rw [List.pairwise_cons]
    constructor
    · intro b hb
      have : b ≠ x := by simpa using (List.mem_filter.1 hb).2
      rw [List.idxOf_cons_self, List.idxOf_cons_ne _ (Ne.symm this)]
      omega
    · refine List.Pairwise.imp_of_mem ?_ (ih.filter _)
      intro a b ha hb hab
      have h1 : a ≠ x := by simpa using (List.mem_filter.1 ha).2
      have h2 : b ≠ x := by simpa using (List.mem_filter.1 hb).2
      rw [List.idxOf_cons_ne _ (Ne.symm h1), List.idxOf_cons_ne _ (Ne.symm h2)]
      omega

/-- The columns of lines that all have the same fixed keys, followed by keys of their own. -/
theorem firsts_lines {α : Type} {F : List Str} (hF : F.Nodup) (own : α → List Str) (l : List α) (hl : l ≠ [])
    (ho : ∀ a ∈ l, ∀ t ∈ own a, t ∉ F) : firsts (l.flatMap fun a => F ++ own a) = F ++ firsts (l.flatMap own) := by
  have key : ∀ l : List α, (∀ a ∈ l, ∀ t ∈ own a, t ∉ F) →
      (l.flatMap fun a => F ++ own a).filter (fun x => decide (x ∉ F)) = l.flatMap own := by
    intro l ho
    induction l with
    | nil => rfl
    | cons a l ih =>
      rw [List.flatMap_cons, List.flatMap_cons, List.filter_append, List.filter_append, ih fun b hb => ho b (List.mem_cons_of_mem _ hb)]
      have e1 : F.filter (fun x => decide (x ∉ F)) = [] := by simp
      have e2 : (own a).filter (fun x => decide (x ∉ F)) = own a := by
        rw [List.filter_eq_self]
        intro t ht
        rw [decide_eq_true_eq]
        exact ho a (by simp) t ht
      rw [e1, e2, List.nil_append]
  cases l with
  | nil => exact absurd rfl hl
  | cons a l =>
    have h2 := key (a :: l) ho
    rw [List.flatMap_cons, List.append_assoc] at h2 ⊢
    rw [firsts_append, firsts_of_nodup hF, firsts_filter]
    rw [List.filter_append, show F.filter (fun x => decide (x ∉ F)) = [] by simp, List.nil_append] at h2
    rw [h2]

/-! ## The raw table -/

/-- The names that the table uses itself. -/
def reserved : List Str := ["cid".toList, "pair".toList, "pairp".toList, "tknin".toList, "tknout".toList]

/-- An instruction between two tokens, none of which has the name of a column of the table. -/
structure Clean (t : TIC K) : Prop where
  in_ : t.ti.tknIn ∉ reserved
  out : t.ti.tknOut ∉ reserved
  diff : t.ti.tknIn ≠ t.ti.tknOut

/-- The tokens of some instructions, as they occur. -/
def mentioned (l : List (TIC K)) : List Str := l.flatMap fun t => [t.ti.tknIn, t.ti.tknOut]

theorem dictSet_new {β : Type} {d : List (Str × β)} {k : Str} {v : β} (h : k ∉ d.map Prod.fst) : dictSet d k v = d ++ [(k, v)] := by
  induction d with
  | nil => rfl
  | cons p d ih =>
    obtain ⟨a, b⟩ := p
    simp only [List.map_cons, List.mem_cons, not_or] at h
    unfold dictSet
    rw [if_neg (Ne.symm h.1), ih h.2, List.cons_append]

theorem dictGet_absent {β : Type} {d : List (Str × β)} {k : Str} (h : k ∉ d.map Prod.fst) : dictGet d k = none := by
  induction d with
  | nil => rfl
  | cons p d ih =>
    obtain ⟨a, b⟩ := p
    simp only [List.map_cons, List.mem_cons, not_or] at h
    unfold dictGet
    rw [if_neg (Ne.symm h.1), ih h.2]

/-- The line of an instruction without its amounts. -/
theorem line_eq (t : TIC K) : ∃ d : List (Str × Cell K), d.map Prod.fst = reserved ∧ t.line = dictSet (dictSet d t.ti.tknIn (.num t.ti.amtIn)) t.ti.tknOut (.num t.ti.amtOut) ∧
    dictGet d "cid".toList = some (.str t.ti.cid) ∧ dictGet d "pair".toList = some (.str (t.pairs.map Prod.fst |>.getD [])) ∧
    dictGet d "pairp".toList = some (.str (t.pairs.map Prod.snd |>.getD [])) ∧ dictGet d "tknin".toList = some (.str t.ti.tknIn) ∧
    dictGet d "tknout".toList = some (.str t.ti.tknOut) :=
  ⟨_, rfl, rfl, rfl, rfl, rfl, rfl, rfl⟩

theorem line_keys {t : TIC K} (h : Clean t) : t.line.map Prod.fst = reserved ++ [t.ti.tknIn, t.ti.tknOut] := by
  obtain ⟨h1, h2, h3⟩ := h
  obtain ⟨d, hd, e, -⟩ := line_eq t
  have e1 : (dictSet d t.ti.tknIn (.num t.ti.amtIn)).map Prod.fst = reserved ++ [t.ti.tknIn] := by
    rw [dictSet_new (by rw [hd]; exact h1), List.map_append, hd]
    rfl
  rw [e, dictSet_new, List.map_append, e1, List.append_assoc]
  · rfl
  · rw [e1, List.mem_append, List.mem_singleton, not_or]
    exact ⟨h2, Ne.symm h3⟩

theorem line_fixed {t : TIC K} (h : Clean t) : dictGet t.line "cid".toList = some (.str t.ti.cid) ∧
    dictGet t.line "pair".toList = some (.str (t.pairs.map Prod.fst |>.getD [])) ∧
    dictGet t.line "pairp".toList = some (.str (t.pairs.map Prod.snd |>.getD [])) ∧
    dictGet t.line "tknin".toList = some (.str t.ti.tknIn) ∧ dictGet t.line "tknout".toList = some (.str t.ti.tknOut) := by
  obtain ⟨h1, h2, -⟩ := h
  obtain ⟨d, hd, e, a1, a2, a3, a4, a5⟩ := line_eq t
  have key : ∀ c ∈ reserved, dictGet t.line c = dictGet d c := by
    intro c hc
    have n2 : t.ti.tknOut ≠ c := fun x => h2 (x ▸ hc)
    have n1 : t.ti.tknIn ≠ c := fun x => h1 (x ▸ hc)
    rw [e, dictGet_set, if_neg n2, dictGet_set, if_neg n1]
  exact ⟨(key _ (by decide)).trans a1, (key _ (by decide)).trans a2, (key _ (by decide)).trans a3, (key _ (by decide)).trans a4,
    (key _ (by decide)).trans a5⟩

theorem line_token {t : TIC K} (h : Clean t) {c : Str} (hc : c ∉ reserved) : dictGet t.line c = (t.ti.amountOf c).map .num := by
  obtain ⟨-, -, h3⟩ := h
  obtain ⟨d, hd, e, -⟩ := line_eq t
  unfold TI.amountOf
  rw [e, dictGet_set, dictGet_set, dictGet_absent (d := d) (by rw [hd]; exact hc)]
  by_cases h1 : t.ti.tknOut = c
  · rw [if_pos h1, if_neg (by rw [← h1]; exact h3), if_pos h1]; rfl
  · rw [if_neg h1]
    by_cases h2 : t.ti.tknIn = c
    · rw [if_pos h2, if_pos h2]; rfl
    · rw [if_neg h2, if_neg h2, if_neg h1]
      rfl

/-- The line of an instruction in the columns of some tokens. -/
def tiAmounts (ts : List Str) (t : TIC K) : List (Option (Cell K)) := ts.map fun c => (t.ti.amountOf c).map .num

theorem frame_eq {l : List (TIC K)} (hl : l ≠ []) (h : ∀ t ∈ l, Clean t) :
    frameOf (l.map TIC.line) = ⟨l.map fun t => .str t.ti.cid,
      ["pair".toList, "pairp".toList, "tknin".toList, "tknout".toList] ++ firsts (mentioned l),
      l.map fun t => [some (.str (t.pairs.map Prod.fst |>.getD [])), some (.str (t.pairs.map Prod.snd |>.getD [])), some (.str t.ti.tknIn),
        some (.str t.ti.tknOut)] ++ tiAmounts (firsts (mentioned l)) t⟩ := by
  have hm : ∀ c ∈ firsts (mentioned l), c ∉ reserved := by
    intro c hc
    rw [mem_firsts] at hc
    obtain ⟨t, ht, hc⟩ := List.mem_flatMap.1 hc
    simp only [List.mem_cons, List.not_mem_nil, or_false] at hc
    rcases hc with rfl | rfl
    · exact (h t ht).in_
    · exact (h t ht).out
  have hcols : (firsts ((l.map TIC.line).flatMap fun d => d.map Prod.fst)).filter (fun c => decide (c ≠ "cid".toList)) =
      ["pair".toList, "pairp".toList, "tknin".toList, "tknout".toList] ++ firsts (mentioned l) := by
    have e : ((l.map TIC.line).flatMap fun d => d.map Prod.fst) = l.flatMap fun t => reserved ++ [t.ti.tknIn, t.ti.tknOut] := by
      rw [List.flatMap_map]
      apply List.flatMap_congr
      intro t ht
      exact line_keys (h t ht)
    rw [e, firsts_lines (by decide) (fun t : TIC K => [t.ti.tknIn, t.ti.tknOut]) l hl, List.filter_append]
    · congr 1
      refine List.filter_eq_self.2 ?_
      intro c hc
      rw [decide_eq_true_eq]
      rintro rfl
      exact hm _ hc (by decide)
    · intro t ht c hc
      simp only [List.mem_cons, List.not_mem_nil, or_false] at hc
      rcases hc with rfl | rfl
      · exact (h t ht).in_
      · exact (h t ht).out
  unfold frameOf
  dsimp only
  rw [hcols, List.map_map, List.map_map]
  congr 1
  · apply List.map_congr_left
    intro t ht
    simp only [Function.comp]
    rw [(line_fixed (h t ht)).1]
    rfl
  · apply List.map_congr_left
    intro t ht
    simp only [Function.comp, List.map_append, List.map_cons, List.map_nil]
    obtain ⟨-, f1, f2, f3, f4⟩ := line_fixed (h t ht)
    rw [f1, f2, f3, f4]
    congr 1
    apply List.map_congr_left
    intro c hc
    exact line_token (h t ht) (hm c hc)

/-- C139: the raw table has one line for each instruction, under its identifier, with the pairs of its curve and its tokens; there is a column
for each token that occurs, in the order in which they first occur, and in it the amount of the token, or nothing. -/
theorem C139_raw {l : List (TIC K)} (hl : l ≠ []) (h : ∀ t ∈ l, Clean t) :
    ∃ ts : List Str, ts.Nodup ∧ (∀ c, c ∈ ts ↔ ∃ t ∈ l, c = t.ti.tknIn ∨ c = t.ti.tknOut) ∧
      (ts.Pairwise fun a b => (mentioned l).idxOf a < (mentioned l).idxOf b) ∧
      tiFormat l (some "dfraw".toList) = .ok (.frame ⟨l.map fun t => .str t.ti.cid,
        ["pair".toList, "pairp".toList, "tknin".toList, "tknout".toList] ++ ts,
        l.map fun t => [some (.str (t.pairs.map Prod.fst |>.getD [])), some (.str (t.pairs.map Prod.snd |>.getD [])), some (.str t.ti.tknIn),
          some (.str t.ti.tknOut)] ++ ts.map fun c => (t.ti.amountOf c).map .num⟩) := by
  refine ⟨firsts (mentioned l), firsts_nodup _, fun c => ?_, firsts_order _, ?_⟩
  · rw [mem_firsts]
    unfold mentioned
    rw [List.mem_flatMap]
    simp
  · show (if l.length = 0 then _ else tiDf l (some "dfraw".toList) >>= _) = _
    rw [if_neg (by simpa using hl)]
    unfold tiDf
    dsimp only
    rw [if_neg hl]
    show (Except.ok (frameOf (l.map TIC.line)) >>= _ : Py (TIOut K)) = _
    rw [Py.ok_bind, frame_eq hl h]
    rfl

/-! ## The aggregated table -/

/-- The sums over the columns. -/
theorem sums3_values {α : Type} (v : α → Str → Option K) (ts : List Str) (l : List α) (test : K → Bool) :
    sums3 ts (l.map fun a => ts.map fun c => (v a c).map .num) test =
      ts.map fun c => some (.num ((l.map fun a => (v a c).getD 0).filter test).sum) := by
  unfold sums3
  apply List.ext_getElem
  · simp
  · intro i h1 h2
    have hi : i < ts.length := by simpa using h2
    rw [List.getElem_map, List.getElem_map, List.getElem_range, List.map_map]
    congr 4
    apply List.map_congr_left
    intro t _
    simp only [Function.comp]
    rw [List.getD_eq_getElem?_getD, List.getElem?_map, List.getElem?_eq_getElem hi]
    simp only [Option.map_some, Option.getD_some]
    cases v t ts[i] <;> rfl

/-- The sums over the columns, token by token. -/
theorem sums3_amounts (ts : List Str) (l : List (TIC K)) (test : K → Bool) :
    sums3 ts (l.map (tiAmounts ts)) test = ts.map fun c => some (.num ((l.map fun t => (t.ti.amountOf c).getD 0).filter test).sum) :=
  sums3_values (fun t : TIC K => t.ti.amountOf) ts l test

variable [IsStrictOrderedRing K]

/-- What the curves receive of a token. -/
def received (l : List (TIC K)) (c : Str) : K := ((l.filter fun t => decide (t.ti.tknIn = c)).map fun t => t.ti.amtIn).sum

/-- What the curves pay out of a token (not positive). -/
def paid (l : List (TIC K)) (c : Str) : K := ((l.filter fun t => decide (t.ti.tknOut = c)).map fun t => t.ti.amtOut).sum

/-- The signs of an instruction. -/
def Signs (t : TIC K) : Prop := 0 ≤ t.ti.amtIn ∧ t.ti.amtOut ≤ 0

theorem sums_eq {l : List (TIC K)} (h : ∀ t ∈ l, t.ti.tknIn ≠ t.ti.tknOut ∧ Signs t) (c : Str) :
    ((l.map fun t => (t.ti.amountOf c).getD 0).filter fun v => decide (0 < v)).sum = received l c ∧
    ((l.map fun t => (t.ti.amountOf c).getD 0).filter fun v => decide (v < 0)).sum = paid l c ∧
    ((l.map fun t => (t.ti.amountOf c).getD 0).filter fun _ => true).sum = received l c + paid l c := by
  unfold received paid
  induction l with
  | nil => simp
  | cons t l ih =>
    obtain ⟨i1, i2, i3⟩ := ih fun t ht => h t (List.mem_cons_of_mem _ ht)
    obtain ⟨hd, h1, h2⟩ := h t (by simp)
    rw [List.filter_true] at i3 ⊢
    simp only [List.map_cons, List.sum_cons, i3, List.filter_cons]
    have ha : t.ti.amountOf c = if t.ti.tknIn = c then some t.ti.amtIn else if t.ti.tknOut = c then some t.ti.amtOut else none := rfl
    rw [ha]
    by_cases a : t.ti.tknIn = c
    · have b : t.ti.tknOut ≠ c := fun b => hd (a.trans b.symm)
      simp only [a, b, if_true, if_false, decide_true, decide_false, Option.getD_some, Bool.false_eq_true, List.map_cons, List.sum_cons]
      refine ⟨?_, ?_, by ring⟩
      · rcases h1.eq_or_lt with h0 | h0
        · rw [← h0]; simpa using i1
        · simpa [h0] using i1
      · rw [if_neg (by simpa using h1)]; exact i2
    · by_cases b : t.ti.tknOut = c
      · simp only [a, b, if_true, if_false, decide_true, decide_false, Option.getD_some, Bool.false_eq_true, List.map_cons, List.sum_cons]
        refine ⟨?_, ?_, by ring⟩
        · rw [if_neg (by simpa using h2)]; exact i1
        · rcases h2.eq_or_lt with h0 | h0
          · rw [h0]; simpa using i2
          · simpa [h0] using i2
      · simp only [a, b, if_false, decide_false, Option.getD_none, Bool.false_eq_true, lt_irrefl]
        exact ⟨i1, i2, by ring⟩

/-- C139: the aggregated table has a column for each token, the lines of the instructions, and then three lines: what the curves receive of
each token, what they pay out, and the sum of both. -/
theorem C139_aggregated {l : List (TIC K)} (hl : l ≠ []) (h : ∀ t ∈ l, Clean t) (hs : ∀ t ∈ l, Signs t) :
    ∃ ts : List Str, ts.Nodup ∧ (∀ c, c ∈ ts ↔ ∃ t ∈ l, c = t.ti.tknIn ∨ c = t.ti.tknOut) ∧
      (ts.Pairwise fun a b => (mentioned l).idxOf a < (mentioned l).idxOf b) ∧
      tiFormat l (some "dfaggr".toList) = .ok (.frame ⟨(l.map fun t => .str t.ti.cid) ++ [.str "AMMIn".toList, .str "AMMOut".toList,
          .str "TOTAL NET".toList], ts,
        (l.map fun t => ts.map fun c => (t.ti.amountOf c).map .num) ++ [ts.map fun c => some (.num (received l c)),
          ts.map fun c => some (.num (paid l c)), ts.map fun c => some (.num (received l c + paid l c))]⟩) := by
  refine ⟨firsts (mentioned l), firsts_nodup _, fun c => ?_, firsts_order _, ?_⟩
  · rw [mem_firsts]
    unfold mentioned
    rw [List.mem_flatMap]
    simp
  · show (if l.length = 0 then _ else tiDf l (some "dfaggr".toList) >>= _) = _
    rw [if_neg (by simpa using hl)]
    unfold tiDf
    dsimp only
    rw [if_neg hl]
    show (Except.ok (frameOf (l.map TIC.line)).aggregate >>= _ : Py (TIOut K)) = _
    rw [Py.ok_bind, frame_eq hl h]
    unfold Frame.aggregate
    dsimp only
    have e1 : (["pair".toList, "pairp".toList, "tknin".toList, "tknout".toList] ++ firsts (mentioned l)).drop 4 = firsts (mentioned l) := rfl
    rw [e1, List.map_map]
    have e2 : (l.map ((fun r : List (Option (Cell K)) => r.drop 4) ∘ fun t : TIC K =>
        [some (.str (t.pairs.map Prod.fst |>.getD [])), some (.str (t.pairs.map Prod.snd |>.getD [])), some (.str t.ti.tknIn),
        some (.str t.ti.tknOut)] ++ tiAmounts (firsts (mentioned l)) t)) = l.map (tiAmounts (firsts (mentioned l))) := rfl
    rw [e2, sums3_amounts, sums3_amounts, sums3_amounts]
    have hq : ∀ t ∈ l, t.ti.tknIn ≠ t.ti.tknOut ∧ Signs t := fun t ht => ⟨(h t ht).diff, hs t ht⟩
    simp only [(sums_eq hq _).1, (sums_eq hq _).2.1, (sums_eq hq _).2.2]
    rfl

/-- C139: the pretty table is the raw table with empty text where there is no amount. -/
theorem C139_pretty {l : List (TIC K)} (hl : l ≠ []) :
    ∃ f g : Frame K, tiFormat l (some "dfraw".toList) = .ok (.frame f) ∧ tiFormat l (some "dfp".toList) = .ok (.frame g) ∧
      g.index = f.index ∧ g.columns = f.columns ∧ g.rows.length = f.rows.length ∧
      (∀ (i : Nat) (r : List (Option (Cell K))), f.rows[i]? = some r → ∃ r' : List (Option (Cell K)), g.rows[i]? = some r' ∧ r'.length = r.length ∧
        ∀ (j : Nat) (x : Option (Cell K)), r[j]? = some x → r'[j]? = some (some (match x with | some v => v | none => .str []))) := by
  have h : ¬ l.length = 0 := by simpa using hl
  refine ⟨frameOf (l.map TIC.line), (frameOf (l.map TIC.line)).pretty, ?_, ?_, rfl, rfl, by simp [Frame.pretty], ?_⟩
  · show (if l.length = 0 then _ else tiDf l (some "dfraw".toList) >>= _) = _
    rw [if_neg h]
    unfold tiDf
    dsimp only
    rw [if_neg hl]
    rfl
  · show (if l.length = 0 then _ else tiDf l (some "dfp".toList) >>= _) = _
    rw [if_neg h]
    unfold tiDf
    dsimp only
    rw [if_neg hl]
    rfl
  · intro i r hr
    refine ⟨r.map fun c => some (c.getD (.str [])), ?_, by simp, ?_⟩
    · unfold Frame.pretty
      dsimp only
      rw [List.getElem?_map, hr]
      rfl
    · intro j x hx
      rw [List.getElem?_map, hx]
      cases x <;> rfl

/-- C139: by default the instructions themselves are returned; `dicts` gives their fields; a format that begins with `df` gives an empty table
for no instructions, whatever follows; any other format is refused. -/
theorem C139_formats (l : List (TIC K)) :
    tiFormat l = .ok (.objects l) ∧ tiFormat l (some "objects".toList) = .ok (.objects l) ∧
    tiFormat l (some "dicts".toList) = .ok (.dicts (l.map fun t => [("cid".toList, .str t.ti.cid), ("tknin".toList, .str t.ti.tknIn),
      ("amtin".toList, .num t.ti.amtIn), ("tknout".toList, .str t.ti.tknOut), ("amtout".toList, .num t.ti.amtOut)])) ∧
    (∀ s : Str, tiFormat ([] : List (TIC K)) (some ("df".toList ++ s)) = .ok (.frame ⟨[], [], []⟩)) ∧
    (∀ f : Str, f ∉ ["objects".toList, "dicts".toList, "dfraw".toList, "dfaggr".toList, "dfp".toList] → (l ≠ [] ∨ f.take 2 ≠ "df".toList) →
      tiFormat l (some f) = .error .value) := by
  refine ⟨rfl, rfl, rfl, fun s => ?_, fun f hf hl => ?_⟩
  · unfold tiFormat
    dsimp only [Option.getD_some]
    have n1 : "df".toList ++ s ≠ "objects".toList := fun e => by
      have := congrArg (List.take 2) e
      rw [List.take_left' (by rfl)] at this
      exact absurd this (by decide)
    have n2 : "df".toList ++ s ≠ "dicts".toList := fun e => by
      have := congrArg (List.take 2) e
      rw [List.take_left' (by rfl)] at this
      exact absurd this (by decide)
    rw [if_neg n1, if_neg n2, if_pos (List.take_left' (by rfl))]
    rfl
  · simp only [List.mem_cons, List.not_mem_nil, or_false, not_or] at hf
    obtain ⟨f1, f2, f3, f4, f5⟩ := hf
    unfold tiFormat
    dsimp only [Option.getD_some]
    rw [if_neg f1, if_neg f2]
    by_cases h : f.take 2 = "df".toList
    · have hn : l ≠ [] := hl.resolve_right (fun x => x h)
      rw [if_pos h, if_neg (by simpa using hn)]
      unfold tiDf
      dsimp only [Option.getD_some]
      rw [if_neg hn, if_neg f3, if_neg f4, if_neg f5]
      rfl
    · rw [if_neg h]

/-! ## The table of the trades of a convex optimization -/

/-- The names that the table of trades uses itself. -/
def dxdyNames (inclk : Bool) : List Str := ["cid".toList, "pair".toList, "tknx".toList, "tkny".toList, "x".toList, "y".toList, "xa".toList,
  "ya".toList] ++ (if inclk then ["k".toList, "kpost".toList, "kk".toList] else ["kk".toList])

/-- The amount of a token in a trade of a curve. -/
def rowAmount (r : CPC K × K × K) (t : Str) : Option K := if r.1.tknq = t then some r.2.2 else if r.1.tknb = t then some r.2.1 else none

theorem dxdyLine_eq (inclk : Bool) (r : CPC K × K × K) : ∃ d : List (Str × Cell K), d.map Prod.fst = dxdyNames inclk ∧
    dxdyLine inclk r = dictSet (dictSet d r.1.tknb (.num r.2.1)) r.1.tknq (.num r.2.2) ∧ dictGet d "cid".toList = some (.str (Cid.show r.1.cid)) ∧
    ((dxdyNames inclk).drop 1).map (dictGet d) = [some (.str r.1.pair), some (.str r.1.tknb), some (.str r.1.tknq), some (.num r.1.x),
      some (.num r.1.y), some (.num r.1.xAct), some (.num r.1.yAct)] ++
      (if inclk then [some (.num r.1.k), some (.num ((r.1.x + r.2.1) * (r.1.y + r.2.2))),
        some (.num ((r.1.x + r.2.1) * (r.1.y + r.2.2) / r.1.k))]
       else [some (.num ((r.1.x + r.2.1) * (r.1.y + r.2.2) / r.1.k))]) := by
  refine ⟨_, ?_, rfl, ?_, ?_⟩ <;> cases inclk <;> rfl

/-- The table of trades has one line for each curve, and columns for the tokens. -/
theorem dxdy_frame {inclk : Bool} {rows : List (CPC K × K × K)} (hr : rows ≠ [])
    (h : ∀ r ∈ rows, r.1.tknb ∉ dxdyNames inclk ∧ r.1.tknq ∉ dxdyNames inclk ∧ r.1.tknb ≠ r.1.tknq) :
    frameOf (rows.map (dxdyLine inclk)) = ⟨rows.map fun r => .str (Cid.show r.1.cid),
      (dxdyNames inclk).drop 1 ++ firsts (rows.flatMap fun r => [r.1.tknb, r.1.tknq]),
      rows.map fun r => [some (.str r.1.pair), some (.str r.1.tknb), some (.str r.1.tknq), some (.num r.1.x),
      some (.num r.1.y), some (.num r.1.xAct), some (.num r.1.yAct)] ++
      (if inclk then [some (.num r.1.k), some (.num ((r.1.x + r.2.1) * (r.1.y + r.2.2))),
        some (.num ((r.1.x + r.2.1) * (r.1.y + r.2.2) / r.1.k))]
       else [some (.num ((r.1.x + r.2.1) * (r.1.y + r.2.2) / r.1.k))]) ++
       (firsts (rows.flatMap fun r => [r.1.tknb, r.1.tknq])).map fun c => (rowAmount r c).map .num⟩ := by
  have hnd : (dxdyNames inclk).Nodup := by cases inclk <;> decide
  have hm : ∀ c ∈ firsts (rows.flatMap fun r => [r.1.tknb, r.1.tknq]), c ∉ dxdyNames inclk := by
    intro c hc
    rw [mem_firsts] at hc
    obtain ⟨t, ht, hc⟩ := List.mem_flatMap.1 hc
    simp only [List.mem_cons, List.not_mem_nil, or_false] at hc
    rcases hc with rfl | rfl
    · exact (h t ht).1
    · exact (h t ht).2.1
  have hcid : "cid".toList ∈ dxdyNames inclk := by cases inclk <;> decide
  have hkeys : ∀ r ∈ rows, (dxdyLine inclk r).map Prod.fst = dxdyNames inclk ++ [r.1.tknb, r.1.tknq] := by
    intro r hr
    obtain ⟨h1, h2, h3⟩ := h r hr
    obtain ⟨d, hd, e, -⟩ := dxdyLine_eq inclk r
    have e1 : (dictSet d r.1.tknb (.num r.2.1)).map Prod.fst = dxdyNames inclk ++ [r.1.tknb] := by
      rw [dictSet_new (by rw [hd]; exact h1), List.map_append, hd]
      rfl
    rw [e, dictSet_new, List.map_append, e1, List.append_assoc]
    · rfl
    · rw [e1, List.mem_append, List.mem_singleton, not_or]
      exact ⟨h2, Ne.symm h3⟩
  have hcols : (firsts ((rows.map (dxdyLine inclk)).flatMap fun d => d.map Prod.fst)).filter (fun c => decide (c ≠ "cid".toList)) =
      (dxdyNames inclk).drop 1 ++ firsts (rows.flatMap fun r => [r.1.tknb, r.1.tknq]) := by
    have e : ((rows.map (dxdyLine inclk)).flatMap fun d => d.map Prod.fst) = rows.flatMap fun r => dxdyNames inclk ++ [r.1.tknb, r.1.tknq] := by
      rw [List.flatMap_map]
      apply List.flatMap_congr
      intro t ht
      exact hkeys t ht
    rw [e, firsts_lines hnd (fun r : CPC K × K × K => [r.1.tknb, r.1.tknq]) rows hr, List.filter_append]
    · have e2 : (dxdyNames inclk).filter (fun c => decide (c ≠ "cid".toList)) = (dxdyNames inclk).drop 1 := by cases inclk <;> decide
      rw [e2]
      congr 1
      refine List.filter_eq_self.2 ?_
      intro c hc
      rw [decide_eq_true_eq]
      rintro rfl
      exact hm _ hc hcid
    · intro t ht c hc
      simp only [List.mem_cons, List.not_mem_nil, or_false] at hc
      rcases hc with rfl | rfl
      · exact (h t ht).1
      · exact (h t ht).2.1
  unfold frameOf
  dsimp only
  rw [hcols, List.map_map, List.map_map]
  have hfix : ∀ r ∈ rows, ∀ d : List (Str × Cell K), dxdyLine inclk r = dictSet (dictSet d r.1.tknb (.num r.2.1)) r.1.tknq (.num r.2.2) →
      ∀ c ∈ dxdyNames inclk, dictGet (dxdyLine inclk r) c = dictGet d c := by
    intro r hr d e c hc
    obtain ⟨h1, h2, -⟩ := h r hr
    have n2 : r.1.tknq ≠ c := fun x => h2 (x ▸ hc)
    have n1 : r.1.tknb ≠ c := fun x => h1 (x ▸ hc)
    rw [e, dictGet_set, if_neg n2, dictGet_set, if_neg n1]
  congr 1
  · apply List.map_congr_left
    intro r hr
    obtain ⟨d, -, e, f1, -⟩ := dxdyLine_eq inclk r
    simp only [Function.comp]
    rw [hfix r hr d e _ hcid, f1]
    rfl
  · apply List.map_congr_left
    intro r hr
    obtain ⟨d, hd, e, -, f2⟩ := dxdyLine_eq inclk r
    simp only [Function.comp]
    rw [List.map_append, ← f2]
    congr 1
    · apply List.map_congr_left
      intro c hc
      exact hfix r hr d e c (List.mem_of_mem_drop hc)
    · apply List.map_congr_left
      intro c hc
      unfold rowAmount
      rw [e, dictGet_set, dictGet_set, dictGet_absent (d := d) (by rw [hd]; exact hm c hc)]
      split_ifs <;> rfl

/-- C139: the table of trades has one line for each curve, with its reserves and the quotient of the product of the reserves after and before
the trade; a column for each token; and a last line with the sum of the amounts of each token. -/
theorem C139_dxdy {rows : List (CPC K × K × K)} (hr : rows ≠ [])
    (h : ∀ r ∈ rows, r.1.tknb ∉ dxdyNames false ∧ r.1.tknq ∉ dxdyNames false ∧ r.1.tknb ≠ r.1.tknq) :
    ∃ ts : List Str, ts.Nodup ∧ (∀ c, c ∈ ts ↔ ∃ r ∈ rows, c = r.1.tknb ∨ c = r.1.tknq) ∧
      dxdyDf rows = .ok ⟨(rows.map fun r => .str (Cid.show r.1.cid)) ++ [.str "total".toList],
        ["pair".toList, "tknx".toList, "tkny".toList, "x".toList, "y".toList, "xa".toList, "ya".toList, "kk".toList] ++ ts,
        (rows.map fun r => [some (.str r.1.pair), some (.str r.1.tknb), some (.str r.1.tknq), some (.num r.1.x), some (.num r.1.y),
          some (.num r.1.xAct), some (.num r.1.yAct), some (.num ((r.1.x + r.2.1) * (r.1.y + r.2.2) / r.1.k))] ++
          ts.map fun c => (rowAmount r c).map .num) ++
        [List.replicate 8 none ++ ts.map fun c => some (.num
          (((rows.filter fun r => decide (r.1.tknb = c)).map fun r => r.2.1).sum +
            ((rows.filter fun r => decide (r.1.tknq = c)).map fun r => r.2.2).sum))]⟩ := by
  refine ⟨firsts (rows.flatMap fun r => [r.1.tknb, r.1.tknq]), firsts_nodup _, fun c => ?_, ?_⟩
  · rw [mem_firsts, List.mem_flatMap]
    simp
  · unfold dxdyDf
    dsimp only
    rw [if_neg hr, dxdy_frame hr h]
    obtain ⟨ts, hts⟩ : ∃ ts, ts = firsts (rows.flatMap fun r => [r.1.tknb, r.1.tknq]) := ⟨_, rfl⟩
    rw [← hts]
    dsimp only
    have e1 : ((dxdyNames false).drop 1 ++ ts).drop 8 = ts := rfl
    have e2 : min 8 ((dxdyNames false).drop 1 ++ ts).length = 8 := by
      rw [List.length_append, show ((dxdyNames false).drop 1).length = 8 by rfl]
      omega
    rw [e1, e2, List.map_map]
    have e3 : ∀ g : CPC K × K × K → List (Option (Cell K)), (∀ r, (g r).drop 8 = ts.map fun c => (rowAmount r c).map .num) →
        sums3 ts (rows.map ((fun r => r.drop 8) ∘ g)) (fun _ => true) = ts.map fun c => some (.num
          (((rows.filter fun r => decide (r.1.tknb = c)).map fun r => r.2.1).sum +
            ((rows.filter fun r => decide (r.1.tknq = c)).map fun r => r.2.2).sum)) := by
      intro g hg
      have : rows.map ((fun r => r.drop 8) ∘ g) = rows.map fun r => ts.map fun c => (rowAmount r c).map .num :=
        List.map_congr_left fun r _ => hg r
      rw [this, sums3_values]
      apply List.map_congr_left
      intro c _
      rw [List.filter_true]
      congr 2
      clear this hg hr hts e1 e2
      induction rows with
      | nil => simp
      | cons r rows ih =>
        rw [List.map_cons, List.sum_cons, ih fun r hr => h r (List.mem_cons_of_mem _ hr)]
        have hd := (h r (by simp)).2.2
        unfold rowAmount
        rw [List.filter_cons, List.filter_cons]
        by_cases a : r.1.tknb = c
        · have b : r.1.tknq ≠ c := fun b => hd (a.trans b.symm)
          simp [a, b]
          ring
        · by_cases b : r.1.tknq = c
          · simp [a, b]
            ring
          · simp [a, b]
    rw [e3 _ fun r => rfl]
    rfl

end

/-! ## The table of the marginal price optimizer -/

/-- C139: the last line of the aggregated table of the instructions of a marginal price optimization holds the changes of the tokens that the
optimization reports; for a token without a column it reports no change. -/
theorem C139_margp {cc : CC ℝ} {target : Str} {p : List ℝ} (h : Input cc target p) (hd : ∀ c ∈ cc.curves, c.tknb ≠ c.tknq) :
    ∃ m ts, margp cc target p = .ok m ∧ m.tradeInstructions = .ok ts ∧
      ∀ l : List (TIC ℝ), l.map TIC.ti = ts → l ≠ [] → (∀ t ∈ l, Clean t) → (∀ t ∈ l, Signs t) →
        ∃ (f : Frame ℝ) (r : List (Option (Cell ℝ))), tiFormat l (some "dfaggr".toList) = .ok (.frame f) ∧
          f.rows.getLast? = some r ∧ r.length = f.columns.length ∧
          (∀ (i : Nat) (c : Str), f.columns[i]? = some c → c ∈ cc.tkns → r[i]? = some ((dictGet m.dtokens c).map Cell.num)) ∧
          (∀ c ∈ cc.tkns, c ∉ f.columns → dictGet m.dtokens c = some 0) := by
  obtain ⟨m, v, ts, h1, -, h3, h4, -⟩ := C79_instructions h hd
  refine ⟨m, ts, h1, h3, fun l hl hn hc hs => ?_⟩
  obtain ⟨cols, -, k2, -, k4⟩ := C139_aggregated hn hc hs
  have hq : ∀ t ∈ l, t.ti.tknIn ≠ t.ti.tknOut ∧ Signs t := fun t ht => ⟨(hc t ht).diff, hs t ht⟩
  have hsum : ∀ c ∈ cc.tkns, dictGet m.dtokens c = some (received l c + paid l c) := by
    intro c hcc
    rw [h4 c hcc, ← hl, List.map_map, ← (sums_eq hq c).2.2, List.filter_true]
    rfl
  refine ⟨_, cols.map fun c => some (.num (received l c + paid l c)), k4, ?_, ?_, ?_, ?_⟩
  · rw [List.getLast?_append]
    rfl
  · simp
  · intro i c hi hcc
    dsimp only at hi
    rw [List.getElem?_map, hi, hsum c hcc]
    rfl
  · intro c hcc hno
    have hno' : ∀ t ∈ l, t.ti.tknIn ≠ c ∧ t.ti.tknOut ≠ c := by
      intro t ht
      constructor
      · exact fun e => hno ((k2 c).2 ⟨t, ht, Or.inl e.symm⟩)
      · exact fun e => hno ((k2 c).2 ⟨t, ht, Or.inr e.symm⟩)
    rw [hsum c hcc]
    unfold received paid
    rw [List.filter_eq_nil_iff.2, List.filter_eq_nil_iff.2]
    · simp
    · intro t ht; simpa using (hno' t ht).2
    · intro t ht; simpa using (hno' t ht).1

/-! ## Names -/

/-- Two instructions, the second of which trades a token whose name is that of a column. -/
def named : List (TIC ℚ) := [⟨⟨"c1".toList, "A".toList, 10, "B".toList, -4⟩, some ("A/B".toList, "A/B".toList)⟩,
  ⟨⟨"c2".toList, "pair".toList, 3, "A".toList, -10⟩, some ("A/pair".toList, "A/pair".toList)⟩]

/-- C139: a token that has the name of a column has no column of its own: its amount replaces the pair of the curve, and is missing from the
sums. -/
theorem C139_names_violated : tiFormat named (some "dfraw".toList) = .ok (.frame ⟨[.str "c1".toList, .str "c2".toList],
      ["pair".toList, "pairp".toList, "tknin".toList, "tknout".toList, "A".toList, "B".toList],
      [[some (.str "A/B".toList), some (.str "A/B".toList), some (.str "A".toList), some (.str "B".toList), some (.num 10), some (.num (-4))],
       [some (.num 3), some (.str "A/pair".toList), some (.str "pair".toList), some (.str "A".toList), some (.num (-10)), none]]⟩) ∧
    ∃ f, tiFormat named (some "dfaggr".toList) = .ok (.frame f) ∧ "pair".toList ∉ f.columns :=
  ⟨by decide +kernel, _, rfl, by decide +kernel⟩

/-- Two instructions between three tokens. -/
def sample : List (TIC ℚ) := [⟨⟨"c1".toList, "A".toList, 10, "B".toList, -4⟩, some ("A/B".toList, "A/B".toList)⟩,
  ⟨⟨"c2".toList, "C".toList, 3, "A".toList, -11⟩, none⟩]

example : tiFormat sample (some "dfaggr".toList) = .ok (.frame ⟨[.str "c1".toList, .str "c2".toList, .str "AMMIn".toList, .str "AMMOut".toList,
      .str "TOTAL NET".toList], ["A".toList, "B".toList, "C".toList],
      [[some (.num 10), some (.num (-4)), none], [some (.num (-11)), none, some (.num 3)], [some (.num 10), some (.num 0), some (.num 3)],
       [some (.num (-11)), some (.num (-4)), some (.num 0)], [some (.num (-1)), some (.num (-4)), some (.num 3)]]⟩) ∧
    (∀ t ∈ sample, Clean t) ∧ (∀ t ∈ sample, Signs t) := by
  refine ⟨by decide +kernel, ?_, ?_⟩
  · intro t ht
    unfold sample at ht
    simp only [List.mem_cons, List.not_mem_nil, or_false] at ht
    rcases ht with rfl | rfl
    · exact ⟨by decide +kernel, by decide +kernel, by decide +kernel⟩
    · exact ⟨by decide +kernel, by decide +kernel, by decide +kernel⟩
  · intro t ht
    unfold sample at ht
    simp only [List.mem_cons, List.not_mem_nil, or_false] at ht
    unfold Signs
    rcases ht with rfl | rfl <;> norm_num

example : ∃ f, tiFormat sample (some "dfp".toList) = .ok (.frame f) ∧ f.rows[1]? = some [some (.str []), some (.str []), some (.str "C".toList),
    some (.str "A".toList), some (.num (-11)), some (.str []), some (.num 3)] := ⟨_, rfl, by decide +kernel⟩

example : tiFormat sample (some "dfx".toList) = .error .value ∧ tiFormat ([] : List (TIC ℚ)) (some "dfx".toList) = .ok (.frame ⟨[], [], []⟩) := by
  decide +kernel

/-- Two pools: the first receives 10 of `A` for 50 of `B`, the second 50 of `B` for 11 of `A`. -/
def twoTrades : List (CPC ℚ × ℚ × ℚ) := [(⟨1000, 10, 10, 100, "A/B".toList, some (.str "c1".toList), "default".toList⟩, 10, -50),
  (⟨1100, 22, 22, 50, "A/B".toList, some (.str "c2".toList), "default".toList⟩, -11, 50)]

example : dxdyDf twoTrades = .ok ⟨[.str "c1".toList, .str "c2".toList, .str "total".toList],
      ["pair".toList, "tknx".toList, "tkny".toList, "x".toList, "y".toList, "xa".toList, "ya".toList, "kk".toList, "A".toList, "B".toList],
      [[some (.str "A/B".toList), some (.str "A".toList), some (.str "B".toList), some (.num 10), some (.num 100), some (.num 10), some (.num 100),
         some (.num 1), some (.num 10), some (.num (-50))],
       [some (.str "A/B".toList), some (.str "A".toList), some (.str "B".toList), some (.num 22), some (.num 50), some (.num 22), some (.num 50),
         some (.num 1), some (.num (-11)), some (.num 50)],
       [none, none, none, none, none, none, none, none, some (.num (-1)), some (.num 0)]]⟩ := by
  decide +kernel

/-- C139: when the products of the reserves are asked for, the line of the totals also adds up, over the curves, the product after the trade
and its quotient. -/
theorem C139_total_violated : ∃ f, dxdyDf twoTrades true = .ok f ∧
    f.columns = ["pair".toList, "tknx".toList, "tkny".toList, "x".toList, "y".toList, "xa".toList, "ya".toList, "k".toList, "kpost".toList,
      "kk".toList, "A".toList, "B".toList] ∧
    f.rows.getLast? = some [none, none, none, none, none, none, none, none, some (.num 2100), some (.num 2), some (.num (-1)), some (.num 0)] :=
  ⟨_, rfl, by decide +kernel, by decide +kernel⟩

end Opt

end Carbon
