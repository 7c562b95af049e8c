import Verif.Helpers.NbConvert
import Verif.Prop.Formulas
import Mathlib.Data.List.TakeDrop

/-!
# C163: notebooks become test files with one function for each section

* `C163_sections`: a notebook without options becomes its preamble without comments, followed by one function for each section with exactly its lines.
* `C163_code_kept`: whatever the notebook, no line of code after the first heading is lost or moved.
* `C163_tested`: which sections are run as tests.
* `C163_files`, `C163_names`: which files are converted; and when two of them are written to the same file.
* `C163_independent_partial`, `C163_default_leaks_violated`: the setting of one notebook holds for those that follow.
* `C163_same_file_violated`, `C163_same_function_violated`, `C163_empty_violated`, `C163_string_violated`, `C163_target_path_violated`: what is lost.
-/

namespace Carbon.NbConvert

open TokenC

/-- A heading of a section: it begins a function. -/
def Heading (l : Str) : Prop := "# ## ".toList <+: l ∨ "# ##".toList ++ ['\u00a0'] <+: l

/-- A line that is neither a title, nor a heading, nor an option. -/
def Plain (l : Str) : Prop := ¬ "# # ".toList <+: l ∧ ¬ Heading l ∧ ¬ "# NBTEST:".toList <+: l

/-- A comment. -/
def Comment (l : Str) : Prop := "# ".toList <+: l

instance (l : Str) : Decidable (Heading l) := by unfold Heading; infer_instance
instance (l : Str) : Decidable (Plain l) := by unfold Plain; infer_instance
instance (l : Str) : Decidable (Comment l) := by unfold Comment; infer_instance

theorem take_eq_iff {n : Nat} {p l : Str} (hn : p.length = n) : l.take n = p ↔ p <+: l := by
  subst hn
  rw [List.prefix_iff_eq_take, eq_comm]

theorem step_title {l : Str} (h : "# # ".toList <+: l) (r : Rec) (s : St) : step r s l = .ok { s with out := s.out ++ [[]] } := by
  unfold step
  rw [if_pos ((take_eq_iff (by decide)).mpr h)]

theorem title_not_heading {l : Str} (h : Heading l) : ¬ "# # ".toList <+: l := by
  intro h'
  rcases h with ⟨t, rfl⟩ | ⟨t, rfl⟩
  · obtain ⟨u, hu⟩ := h'
    simp at hu
  · obtain ⟨u, hu⟩ := h'
    simp at hu

theorem step_heading {l : Str} (h : Heading l) (r : Rec) (s : St) :
    step r s l = .ok { s with out := s.out ++ banner r s.dflt (CarbonPair.strip (l.drop 5)), precode := false } := by
  unfold step
  rw [if_neg fun e => title_not_heading h ((take_eq_iff (by decide)).mp e), if_pos]
  rcases h with h | h
  · exact .inl ((take_eq_iff (by decide)).mpr h)
  · exact .inr ((take_eq_iff (by decide)).mpr h)

theorem step_plain {l : Str} (h : Plain l) (r : Rec) (s : St) :
    step r s l = .ok (if s.precode then (if Comment l then s else { s with out := s.out ++ [l] }) else { s with out := s.out ++ ["    ".toList ++ l] }) := by
  obtain ⟨h1, h2, h3⟩ := h
  unfold step
  rw [if_neg fun e => h1 ((take_eq_iff (by decide)).mp e), if_neg, if_neg fun e => h3 ((take_eq_iff (by decide)).mp e)]
  · by_cases hp : s.precode = true
    · rw [if_pos hp, if_pos hp]
      by_cases hc : Comment l
      · rw [if_pos ((take_eq_iff (by decide)).mpr hc), if_pos hc]
      · rw [if_neg fun e => hc ((take_eq_iff (by decide)).mp e), if_neg hc]
    · rw [if_neg hp, if_neg hp]
  · rintro (e | e)
    · exact h2 (.inl ((take_eq_iff (by decide)).mp e))
    · exact h2 (.inr ((take_eq_iff (by decide)).mp e))

theorem step_option {l : Str} (h : "# NBTEST:".toList <+: l) (r : Rec) (s s' : St) (e : step r s l = .ok s') :
    s'.out = s.out ∧ s'.precode = s.precode := by
  obtain ⟨t, rfl⟩ := h
  unfold step at e
  rw [if_neg (by simp), if_neg (by simp), if_pos (by simp)] at e
  split at e
  · split at e
    · split at e
      · cases e
        exact ⟨rfl, rfl⟩
      · exact absurd e (by simp)
    · exact absurd e (by simp)
  · exact absurd e (by simp)

/-- Every kind of line. -/
theorem kinds (l : Str) : "# # ".toList <+: l ∨ Heading l ∨ "# NBTEST:".toList <+: l ∨ Plain l := by
  by_cases h1 : "# # ".toList <+: l
  · exact .inl h1
  · by_cases h2 : Heading l
    · exact .inr (.inl h2)
    · by_cases h3 : "# NBTEST:".toList <+: l
      · exact .inr (.inr (.inl h3))
      · exact .inr (.inr (.inr ⟨h1, h2, h3⟩))

/-- A section of a notebook: the title and the lines below. -/
structure Section where
  title : Str
  body : List Str

/-- The lines of a section in the notebook. -/
def Section.lines (s : Section) : List Str := ("# ## ".toList ++ s.title) :: s.body

/-- The function that a section becomes. -/
def Section.function (r : Rec) (dflt : Str) (s : Section) : List Str :=
  banner r dflt (CarbonPair.strip s.title) ++ s.body.map ("    ".toList ++ ·)

theorem fold_pre (r : Rec) : ∀ (pre : List Str) (s : St), s.precode = true → (∀ l ∈ pre, Plain l) →
    pre.foldlM (step r) s = .ok { s with out := s.out ++ pre.filter (fun l => ¬ Comment l) }
  | [], s, _, _ => by simp [pure, Except.pure]
  | l :: pre, s, hs, h => by
    rw [List.foldlM_cons, step_plain (h l List.mem_cons_self), if_pos hs, Py.ok_bind]
    by_cases hc : Comment l
    · rw [if_pos hc, fold_pre r pre s hs fun x hx => h x (List.mem_cons_of_mem _ hx), List.filter_cons_of_neg (by simpa using hc)]
    · rw [if_neg hc, fold_pre r pre { s with out := s.out ++ [l] } hs fun x hx => h x (List.mem_cons_of_mem _ hx),
        List.filter_cons_of_pos (by simpa using hc)]
      simp

theorem fold_body (r : Rec) : ∀ (body : List Str) (s : St), s.precode = false → (∀ l ∈ body, Plain l) →
    body.foldlM (step r) s = .ok { s with out := s.out ++ body.map ("    ".toList ++ ·) }
  | [], s, _, _ => by simp [pure, Except.pure]
  | l :: body, s, hs, h => by
    rw [List.foldlM_cons, step_plain (h l List.mem_cons_self), if_neg (by simp [hs]), Py.ok_bind,
      fold_body r body { s with out := s.out ++ ["    ".toList ++ l] } hs fun x hx => h x (List.mem_cons_of_mem _ hx)]
    simp

theorem fold_sections (r : Rec) : ∀ (secs : List Section) (s : St), (∀ x ∈ secs, ∀ l ∈ x.body, Plain l) →
    ∃ p, (secs.flatMap Section.lines).foldlM (step r) s = .ok ⟨s.out ++ secs.flatMap (Section.function r s.dflt), p, s.dflt⟩
  | [], s, _ => ⟨s.precode, by simp [pure, Except.pure]⟩
  | x :: secs, s, h => by
    obtain ⟨p, hp⟩ := fold_sections r secs ⟨s.out ++ x.function r s.dflt, false, s.dflt⟩ fun y hy => h y (List.mem_cons_of_mem _ hy)
    refine ⟨p, ?_⟩
    rw [List.flatMap_cons, Section.lines, List.cons_append, List.foldlM_cons, step_heading (.inl ⟨x.title, rfl⟩), Py.ok_bind,
      List.foldlM_append, fold_body r x.body _ rfl (h x List.mem_cons_self), Py.ok_bind]
    have e : (s.out ++ banner r s.dflt (CarbonPair.strip (List.drop 5 ("# ## ".toList ++ x.title)))) ++ List.map (fun l => "    ".toList ++ l) x.body
        = s.out ++ x.function r s.dflt := by
      rw [Section.function, List.append_assoc]
      rfl
    dsimp only at e ⊢
    rw [e, hp, List.flatMap_cons, ← List.append_assoc]

/-- **C163**: a notebook of plain lines becomes, after the lines on its origin, the preamble without its comments, followed by one function for
each section, in the same order, with exactly the lines of the section, indented; the setting for the tests is not changed. -/
theorem C163_sections (r dr : Rec) (dflt code src trg : Str) {pre : List Str} {secs : List Section} (hcode : splitLines code = pre ++ secs.flatMap Section.lines)
    (hpre : ∀ l ∈ pre, Plain l) (hsecs : ∀ x ∈ secs, ∀ l ∈ x.body, Plain l) :
    processCode r dr dflt code src trg =
      .ok (['\n'].intercalate (header dr src trg ++ pre.filter (fun l => ¬ Comment l) ++ secs.flatMap (Section.function r dflt)), dflt) := by
  obtain ⟨p, hp⟩ := fold_sections r secs ⟨header dr src trg ++ pre.filter (fun l => ¬ Comment l), true, dflt⟩ hsecs
  unfold processCode
  rw [hcode, List.foldlM_append, fold_pre r pre _ rfl hpre, Py.ok_bind]
  dsimp only at hp ⊢
  rw [hp, Py.ok_bind]

/-- Lines of code: not blank, not comments. -/
def Code (l : Str) : Prop := CarbonPair.strip l ≠ [] ∧ ¬ "#".toList <+: CarbonPair.strip l

instance (l : Str) : Decidable (Code l) := by unfold Code; infer_instance

/-- The lines from the first heading on. -/
def afterHeading (ls : List Str) : List Str := ls.dropWhile fun l => ¬ Heading l

theorem fold_kept (r : Rec) : ∀ (ls : List Str) (s s' : St), ls.foldlM (step r) s = .ok s' →
    ∃ o, s'.out = s.out ++ o ∧
      (((if s.precode then afterHeading ls else ls).filter (fun l => Plain l)).map ("    ".toList ++ ·)).Sublist o
  | [], s, s', h => by
    simp only [List.foldlM, pure, Except.pure] at h
    cases h
    exact ⟨[], by simp, by simp [afterHeading]⟩
  | l :: ls, s, s', h => by
    rw [List.foldlM_cons, Py.bind_eq_ok] at h
    obtain ⟨t, ht, h⟩ := h
    obtain ⟨o, ho, hs⟩ := fold_kept r ls t s' h
    rcases kinds l with hl | hl | hl | hl
    · have nh : ¬ Heading l := fun x => title_not_heading x hl
      have np : ¬ Plain l := fun x => x.1 hl
      rw [step_title hl] at ht
      cases ht
      refine ⟨[] :: o, by rw [ho]; simp, ?_⟩
      have e : (if s.precode = true then afterHeading (l :: ls) else l :: ls).filter (fun l => Plain l)
          = (if s.precode = true then afterHeading ls else ls).filter (fun l => Plain l) := by
        split
        · rw [afterHeading, List.dropWhile_cons_of_pos (by simpa using nh)]; rfl
        · rw [List.filter_cons_of_neg (by simpa using np)]
      rw [e]
      exact hs.cons _
    · have np : ¬ Plain l := fun x => x.2.1 hl
      rw [step_heading hl] at ht
      cases ht
      refine ⟨banner r s.dflt (CarbonPair.strip (l.drop 5)) ++ o, by rw [ho, ← List.append_assoc], ?_⟩
      have e : (if s.precode = true then afterHeading (l :: ls) else l :: ls).filter (fun l => Plain l) = ls.filter (fun l => Plain l) := by
        have e' : (if s.precode = true then afterHeading (l :: ls) else l :: ls) = l :: ls := by
          split
          · rw [afterHeading, List.dropWhile_cons_of_neg (by simpa using hl)]
          · rfl
        rw [e', List.filter_cons_of_neg (by simpa using np)]
      rw [e]
      exact hs.trans (List.sublist_append_right _ _)
    · have np : ¬ Plain l := fun x => x.2.2 hl
      have nh : ¬ Heading l := by
        obtain ⟨u, rfl⟩ := hl
        rintro (⟨v, hv⟩ | ⟨v, hv⟩) <;> simp at hv
      obtain ⟨h1, h2⟩ := step_option hl r s t ht
      refine ⟨o, by rw [ho, h1], ?_⟩
      rw [h2] at hs
      have e : (if s.precode = true then afterHeading (l :: ls) else l :: ls).filter (fun l => Plain l)
          = (if s.precode = true then afterHeading ls else ls).filter (fun l => Plain l) := by
        split
        · rw [afterHeading, List.dropWhile_cons_of_pos (by simpa using nh)]; rfl
        · rw [List.filter_cons_of_neg (by simpa using np)]
      rw [e]
      exact hs
    · rw [step_plain hl] at ht
      cases ht
      by_cases hp : s.precode = true
      · have e : (if s.precode = true then afterHeading (l :: ls) else l :: ls) = afterHeading ls := by
          rw [if_pos hp, afterHeading, List.dropWhile_cons_of_pos (by simpa using hl.2.1)]; rfl
        rw [e]
        by_cases hc : Comment l
        · rw [if_pos hp, if_pos hc] at ho hs
          rw [if_pos hp] at hs
          exact ⟨o, ho, hs⟩
        · rw [if_pos hp, if_neg hc] at ho hs
          dsimp only at ho hs
          rw [if_pos hp] at hs
          exact ⟨l :: o, by rw [ho]; simp, hs.cons _⟩
      · rw [if_neg hp] at ho hs ⊢
        dsimp only at ho hs
        rw [if_neg hp] at hs
        refine ⟨("    ".toList ++ l) :: o, by rw [ho]; simp, ?_⟩
        rw [List.filter_cons_of_pos (by simpa using hl), List.map_cons]
        exact hs.cons_cons _

/-- **C163**: whatever the notebook, if it is converted then every line after the first heading that is not itself a title, a heading or an option is in
the test file, indented, and these lines are in the order of the notebook. -/
theorem C163_code_kept {r dr : Rec} {dflt code src trg text d : Str} (h : processCode r dr dflt code src trg = .ok (text, d)) :
    ∃ o, text = ['\n'].intercalate (header dr src trg ++ o) ∧
      (((afterHeading (splitLines code)).filter (fun l => Plain l)).map ("    ".toList ++ ·)).Sublist o := by
  unfold processCode at h
  rw [Py.bind_eq_ok] at h
  obtain ⟨s, hs, h⟩ := h
  cases h
  obtain ⟨o, ho, hk⟩ := fold_kept r _ _ _ hs
  exact ⟨o, by rw [ho], by simpa using hk⟩

/-- **C163**: a section is run as a test exactly if it is not marked with `[NOTEST]`, and it is marked with `[TEST]` or the setting is not `NOTEST`. -/
theorem C163_tested (dflt title : Str) : "test_".toList <+: funcn dflt title ↔
    ¬ "[NOTEST]".toList <:+ CarbonPair.strip title ∧ ("[TEST]".toList <:+ CarbonPair.strip title ∨ dflt ≠ "NOTEST".toList) := by
  have last : ∀ (m s : Str) (n : Nat), m.length = n → (lastN n s = m ↔ m <:+ s) := by
    intro m s n hn
    subst hn
    rw [List.suffix_iff_eq_drop, lastN, eq_comm]
  unfold funcn
  dsimp only
  have l8 := last "[NOTEST]".toList (CarbonPair.strip title) 8 (by decide)
  have l6 := last "[TEST]".toList (CarbonPair.strip title) 6 (by decide)
  split_ifs with h1 h2 h3
  · refine iff_of_false ?_ fun h => h.1 (l8.mp h1)
    rintro ⟨u, hu⟩
    simp at hu
  · exact iff_of_true (List.prefix_append _ _) ⟨fun h => h1 (l8.mpr h), .inl (l6.mp h2)⟩
  · refine iff_of_false ?_ fun h => h.2.elim (fun x => h2 (l6.mpr x)) fun x => x h3
    rintro ⟨u, hu⟩
    simp at hu
  · exact iff_of_true (List.prefix_append _ _) ⟨fun h => h1 (l8.mpr h), .inr h3⟩

/-- **C163**: the setting is changed by an option of the notebook only, to `TEST` or `NOTEST`; any other option is refused and the notebook is not converted. -/
theorem C163_options {r : Rec} {s s' : St} {l : Str} (h : step r s l = .ok s') :
    s'.dflt = s.dflt ∨ ("# NBTEST:".toList <+: l ∧ (s'.dflt = "TEST".toList ∨ s'.dflt = "NOTEST".toList)) := by
  rcases kinds l with hl | hl | hl | hl
  · rw [step_title hl] at h; cases h; exact .inl rfl
  · rw [step_heading hl] at h; cases h; exact .inl rfl
  · refine .inr ⟨hl, ?_⟩
    obtain ⟨t, rfl⟩ := hl
    unfold step at h
    rw [if_neg (by simp), if_neg (by simp), if_pos (by simp)] at h
    split at h
    · split at h
      · split at h
        · rename_i hv
          cases h
          exact hv
        · exact absurd h (by simp)
      · exact absurd h (by simp)
    · exact absurd h (by simp)
  · rw [step_plain hl] at h
    cases h
    left
    split_ifs <;> rfl

/-! ## Names of files -/

theorem splitChar_ne (d : Char) (s : Str) : splitChar d s ≠ [] := by
  cases s with
  | nil => simp [splitChar]
  | cons a s =>
    unfold splitChar
    split
    · simp
    · split <;> simp

theorem splitChar_intercalate (d : Char) : ∀ s : Str, [d].intercalate (splitChar d s) = s
  | [] => rfl
  | a :: s => by
    have ih := splitChar_intercalate d s
    unfold splitChar
    split
    · rename_i h
      cases e : splitChar d s with
      | nil => exact absurd e (splitChar_ne d s)
      | cons w ws =>
        rw [e] at ih
        rw [List.intercalate_cons_cons, ih, h]
        rfl
    · split
      · rename_i e
        rw [e] at ih
        have : s = [] := by simpa [List.intercalate] using ih.symm
        subst this
        rfl
      · rename_i w ws e
        rw [e] at ih
        cases ws with
        | nil =>
          have : w = s := by simpa [List.intercalate] using ih
          subst this
          simp [List.intercalate]
        | cons x xs =>
          rw [List.intercalate_cons_cons] at ih ⊢
          rw [← ih]
          rfl

theorem rsplitDot_eq {stem ext : Str} (h : '.' ∉ ext) : rsplitDot (stem ++ '.' :: ext) = some (stem, ext) := by
  have he : ∀ c ∈ ext.reverse, decide (c ≠ '.') = true := fun c hc => by
    simp only [ne_eq, decide_not, Bool.not_eq_eq_eq_not, Bool.not_true, decide_eq_false_iff_not]
    rintro rfl
    exact h (List.mem_reverse.mp hc)
  unfold rsplitDot
  rw [if_pos (by simp)]
  have e : (stem ++ '.' :: ext).reverse = ext.reverse ++ '.' :: stem.reverse := by simp
  rw [e, List.dropWhile_append_of_pos he, List.takeWhile_append_of_pos he]
  simp

theorem rsplitDot_some {s stem ext : Str} (h : rsplitDot s = some (stem, ext)) : s = stem ++ '.' :: ext ∧ '.' ∉ ext := by
  unfold rsplitDot at h
  split at h
  · rename_i hd
    rw [Option.some.injEq, Prod.mk.injEq] at h
    obtain ⟨rfl, rfl⟩ := h
    constructor
    · have hne : s.reverse.dropWhile (fun c => decide (c ≠ '.')) ≠ [] := by
        intro e
        rw [List.dropWhile_eq_nil_iff] at e
        exact absurd (e '.' (List.mem_reverse.mpr hd)) (by simp)
      have hh := List.head_dropWhile_not (fun c => decide (c ≠ '.')) hne
      have hd' : (s.reverse.dropWhile fun c => decide (c ≠ '.')) = '.' :: (s.reverse.dropWhile fun c => decide (c ≠ '.')).drop 1 := by
        cases e : s.reverse.dropWhile (fun c => decide (c ≠ '.')) with
        | nil => exact absurd e hne
        | cons a t =>
          simp only [e, List.head_cons] at hh
          have : a = '.' := by simpa using hh
          simp [this]
      have := List.takeWhile_append_dropWhile (p := fun c => decide (c ≠ '.')) (l := s.reverse)
      rw [hd'] at this
      have := congrArg List.reverse this
      rw [List.reverse_reverse, List.reverse_append, List.reverse_cons] at this
      rw [List.append_assoc] at this
      exact this.symm
    · intro hm
      have := List.mem_takeWhile_imp (List.mem_reverse.mp hm)
      simp at this
  · exact absurd h (by simp)

/-- **C163**: the files that are converted are those named `NBTest_`, a number, and perhaps an underscore and a comment, with the extension `py` in
whatever case; number and comment are free of underscores. -/
theorem C163_files (fn : Str) (r : Rec) : filterfn fn = some r ↔
    ∃ ext tid comment, lower ext = "py".toList ∧ '_' ∉ tid ∧ '_' ∉ comment ∧
      (fn = "NBTest_".toList ++ tid ++ '.' :: ext ∧ comment = [] ∨ fn = "NBTest_".toList ++ tid ++ '_' :: comment ++ '.' :: ext) ∧
      r = ⟨tid, comment, fn, "test_".toList ++ tid ++ '_' :: comment ++ ".py".toList⟩ := by
  have dot : ∀ ext : Str, lower ext = "py".toList → '.' ∉ ext := by
    intro ext h hm
    have : Char.toLower '.' ∈ lower ext := List.mem_map_of_mem hm
    rw [h] at this
    revert this
    decide
  constructor
  · intro h
    unfold filterfn at h
    split at h
    · exact absurd h (by simp)
    · rename_i stem ext e
      obtain ⟨rfl, hd⟩ := rsplitDot_some e
      split at h
      · rename_i hext
        have parts := Tags.splitChar_parts '_' stem
        have back := splitChar_intercalate '_' stem
        split at h
        · rename_i n tid es
          split at h
          · rename_i hn
            rw [Option.some.injEq] at h
            subst h hn
            rw [es] at parts back
            refine ⟨ext, tid, [], hext, parts tid (by simp), by simp, .inl ⟨?_, rfl⟩, rfl⟩
            rw [← back]
            simp [List.intercalate]
          · exact absurd h (by simp)
        · rename_i n tid c es
          split at h
          · rename_i hn
            rw [Option.some.injEq] at h
            subst h hn
            rw [es] at parts back
            refine ⟨ext, tid, c, hext, parts tid (by simp), parts c (by simp), .inr ?_, rfl⟩
            rw [← back]
            simp [List.intercalate]
          · exact absurd h (by simp)
        · exact absurd h (by simp)
      · exact absurd h (by simp)
  · rintro ⟨ext, tid, comment, hext, ht, hc, h, rfl⟩
    rcases h with ⟨rfl, rfl⟩ | rfl
    · unfold filterfn
      rw [rsplitDot_eq (dot ext hext)]
      dsimp only
      rw [if_pos hext, show "NBTest_".toList ++ tid = ['_'].intercalate ["NBTest".toList, tid] by simp [List.intercalate],
        Tags.splitChar_join (by simp) (by simp [ht])]
      rfl
    · unfold filterfn
      rw [rsplitDot_eq (dot ext hext)]
      dsimp only
      rw [if_pos hext, show "NBTest_".toList ++ tid ++ '_' :: comment = ['_'].intercalate ["NBTest".toList, tid, comment] by simp [List.intercalate],
        Tags.splitChar_join (by simp) (by simp [ht, hc])]
      rfl

/-- **C163**: two files are written to the same test file exactly if number and comment agree. -/
theorem C163_names {fn fn' : Str} {r r' : Rec} (h : filterfn fn = some r) (h' : filterfn fn' = some r') :
    r.outfn = r'.outfn ↔ r.tid = r'.tid ∧ r.comment = r'.comment := by
  obtain ⟨_, t, c, -, ht, -, -, rfl⟩ := (C163_files fn r).mp h
  obtain ⟨_, t', c', -, ht', -, -, rfl⟩ := (C163_files fn' r').mp h'
  constructor
  · intro e
    dsimp only at e
    rw [List.append_cancel_right_eq, List.append_assoc, List.append_assoc, List.append_cancel_left_eq] at e
    have := congrArg (splitChar '_') e
    rw [Prop.Version.splitChar_append (fun x hx => by rintro rfl; exact ht hx), Prop.Version.splitChar_append (fun x hx => by rintro rfl; exact ht' hx)] at this
    obtain ⟨rfl, -⟩ := List.cons.inj this
    exact ⟨rfl, by simpa using e⟩
  · rintro ⟨e1, e2⟩
    dsimp only at e1 e2 ⊢
    rw [e1, e2]

/-! ## Several files -/

theorem fold_dflt (r : Rec) : ∀ (ls : List Str) (s : St), (∀ l ∈ ls, ¬ "# NBTEST:".toList <+: l) →
    ∃ s', ls.foldlM (step r) s = .ok s' ∧ s'.dflt = s.dflt
  | [], s, _ => ⟨s, by simp [pure, Except.pure], rfl⟩
  | l :: ls, s, h => by
    have : ∃ t, step r s l = .ok t := by
      rcases kinds l with hl | hl | hl | hl
      · exact ⟨_, step_title hl r s⟩
      · exact ⟨_, step_heading hl r s⟩
      · exact absurd hl (h l List.mem_cons_self)
      · exact ⟨_, step_plain hl r s⟩
    obtain ⟨t, ht⟩ := this
    obtain ⟨s', h1, h2⟩ := fold_dflt r ls t fun x hx => h x (List.mem_cons_of_mem _ hx)
    refine ⟨s', by rw [List.foldlM_cons, ht, Py.ok_bind, h1], ?_⟩
    rcases C163_options ht with e | e
    · rw [h2, e]
    · exact absurd e.1 (h l List.mem_cons_self)

theorem process_dflt (r dr : Rec) (dflt src trg : Str) {code : Str} (h : ∀ l ∈ splitLines code, ¬ "# NBTEST:".toList <+: l) :
    ∃ text, processCode r dr dflt code src trg = .ok (text, dflt) := by
  obtain ⟨s', h1, h2⟩ := fold_dflt r (splitLines code) ⟨header dr src trg, true, dflt⟩ h
  exact ⟨['\n'].intercalate s'.out, by unfold processCode; rw [h1, Py.ok_bind, h2]⟩

/-- C163, as far as it holds for several files: if no notebook has options and no two are written to the same file, then the program succeeds, each
test file is what its notebook gives alone, and no other file is written. -/
theorem C163_independent_partial (src trg dflt : Str) : ∀ (fs : List (Str × Str)) (k : Target),
    (∀ f ∈ fs, ∀ l ∈ splitLines f.2, ¬ "# NBTEST:".toList <+: l) →
    fs.Pairwise (fun a b => ∀ r r', filterfn a.1 = some r → filterfn b.1 = some r' → r.outfn ≠ r'.outfn) →
    ∃ k', run src trg fs dflt k = (.ok dflt, k') ∧
      (∀ f ∈ fs, ∀ r, filterfn f.1 = some r → ∃ text, processCode r r dflt f.2 src trg = .ok (text, dflt) ∧ k' r.outfn = some text) ∧
      ∀ n, (∀ f ∈ fs, ∀ r, filterfn f.1 = some r → r.outfn ≠ n) → k' n = k n
  | [], k, _, _ => ⟨k, rfl, by simp, fun _ _ => rfl⟩
  | (fn, code) :: fs, k, ho, hp => by
    have ho' : ∀ f ∈ fs, ∀ l ∈ splitLines f.2, ¬ "# NBTEST:".toList <+: l := fun f hf => ho f (List.mem_cons_of_mem _ hf)
    rw [List.pairwise_cons] at hp
    cases hr : filterfn fn with
    | none =>
      obtain ⟨k', h1, h2, h3⟩ := C163_independent_partial src trg dflt fs k ho' hp.2
      refine ⟨k', by rw [run, hr]; exact h1, ?_, fun n hn => h3 n fun f hf => hn f (List.mem_cons_of_mem _ hf)⟩
      intro f hf r hfr
      rcases List.mem_cons.mp hf with rfl | hf
      · rw [hr] at hfr
        exact absurd hfr (by simp)
      · exact h2 f hf r hfr
    | some r =>
      obtain ⟨text, ht⟩ := process_dflt r r dflt src trg (ho (fn, code) List.mem_cons_self)
      obtain ⟨k', h1, h2, h3⟩ := C163_independent_partial src trg dflt fs (Function.update k r.outfn (some text)) ho' hp.2
      refine ⟨k', by rw [run, hr]; dsimp only; rw [ht]; exact h1, ?_, ?_⟩
      · intro f hf r' hfr
        rcases List.mem_cons.mp hf with rfl | hf
        · rw [hr, Option.some.injEq] at hfr
          subst hfr
          refine ⟨text, ht, ?_⟩
          rw [h3 r.outfn fun f hf r' hr' => (hp.1 f hf r r' hr hr').symm, Function.update_self]
        · exact h2 f hf r' hfr
      · intro n hn
        rw [h3 n fun f hf => hn f (List.mem_cons_of_mem _ hf), Function.update_of_ne (hn _ List.mem_cons_self r hr).symm]

/-! ## What goes wrong -/

/-- The lines of a text. -/
def text (ls : List String) : Str := ['\n'].intercalate (ls.map String.toList)

/-- The names of the functions defined in a text. -/
def defs (t : Str) : List Str := ((splitLines t).filter fun l => "def ".toList <+: l).map fun l => (l.drop 4).takeWhile (· ≠ '(')

/-- The names of the functions in a file of a directory. -/
def defsIn (k : Target) (fn : String) : Option (List Str) := (k fn.toList).map defs

/-- **C163 violated**: an option in one notebook holds for the notebooks after it: the section of the second notebook is run as a test if it is converted
alone, and is not if it is converted after the first. -/
theorem C163_default_leaks_violated :
    let a : Str × Str := ("NBTest_1.py".toList, text ["# NBTEST: NOTEST_DEFAULT = NOTEST", "# ## Slow", "f()"])
    let b : Str × Str := ("NBTest_2.py".toList, text ["# ## Prices", "assert g() == 1"])
    defsIn (run [] [] [b] "TEST".toList fun _ => none).2 "test_2_.py" = some ["test_prices".toList] ∧
      defsIn (run [] [] [a, b] "TEST".toList fun _ => none).2 "test_2_.py" = some ["notest_prices".toList] := by
  decide +kernel

/-- **C163 violated**: two notebooks whose names differ in an underscore at the end are written to the same file; the tests of the first are lost. -/
theorem C163_same_file_violated :
    let a : Str × Str := ("NBTest_1.py".toList, text ["# ## Prices", "assert g() == 1"])
    let b : Str × Str := ("NBTest_1_.py".toList, text ["# ## Amounts", "assert h() == 1"])
    (run [] [] [a, b] "TEST".toList fun _ => none).1 = .ok "TEST".toList ∧
      defsIn (run [] [] [a, b] "TEST".toList fun _ => none).2 "test_1_.py" = some ["test_amounts".toList] := by
  decide +kernel

/-- **C163 violated**: two sections with different titles become functions of the same name; the second definition replaces the first, which is never run. -/
theorem C163_same_function_violated :
    let a : Str × Str := ("NBTest_1.py".toList, text ["# ## Buy and sell", "assert g() == 1", "# ## Buy and Sell", "assert g() == 2"])
    defsIn (run [] [] [a] "TEST".toList fun _ => none).2 "test_1_.py" = some ["test_buy_and_sell".toList, "test_buy_and_sell".toList] := by
  decide +kernel

/-- **C163 violated**: a section whose title is not made of letters, digits and blanks becomes a function whose name is none in the language: nothing in the
file can be run. -/
theorem C163_identifier_violated :
    let a : Str × Str := ("NBTest_1.py".toList, text ["# ## Buy-and-hold (slow)", "assert g() == 1"])
    defsIn (run [] [] [a] "TEST".toList fun _ => none).2 "test_1_.py" = some ["test_buy-and-hold_".toList] := by
  decide +kernel

/-- Whether the lines after a `def` have a body: the first of them that is code is indented. -/
def hasBody : List Str → Bool
  | [] => false
  | l :: ls => if Code l then decide ([' '] <+: l) else hasBody ls

/-- **C163 violated**: a section without code becomes a function without body, with which nothing in the file can be run. -/
theorem C163_empty_violated :
    let a : Str × Str := ("NBTest_1.py".toList, text ["# ## Outlook", "# nothing yet", "# ## Prices", "assert g() == 1"])
    ((run [] [] [a] "TEST".toList fun _ => none).2 "test_1_.py".toList).map (fun t => hasBody (((splitLines t).dropWhile (· ≠ "def test_outlook():".toList)).drop 1))
        = some false ∧
      ((run [] [] [a] "TEST".toList fun _ => none).2 "test_1_.py".toList).map (fun t => hasBody (((splitLines t).dropWhile (· ≠ "def test_prices():".toList)).drop 1))
        = some true := by
  decide +kernel

/-- What is between the first two triple quotes of a text. -/
def literal (t : Str) : Str :=
  let q : Str := ['"', '"', '"']
  let rec skip : Str → Str
    | [] => []
    | c :: s => if q <+: c :: s then s.drop 2 else skip s
  let rec upto : Str → Str
    | [] => []
    | c :: s => if q <+: c :: s then [] else c :: upto s
  upto (skip t)

/-- **C163 violated**: a text over several lines in a notebook is another text in the test file, because each of its lines is indented. -/
theorem C163_string_violated :
    let c : Str := text ["# ## Read", "t = \"\"\"a,b", "1,2\"\"\""]
    literal c = text ["a,b", "1,2"] ∧
      (processCode ⟨[], [], [], []⟩ ⟨[], [], [], []⟩ "TEST".toList c [] []).toOption.map (fun p => literal p.1) = some (text ["a,b", "    1,2"]) := by
  decide +kernel

/-- **C163 violated**: the line on the target path names the source path, whatever the target path. -/
theorem C163_target_path_violated (dr : Rec) (src trg trg' : Str) (h : trg ≠ []) (h1 : trg ≠ ".".toList) (h' : trg' ≠ []) (h1' : trg' ≠ ".".toList) :
    "# target path   = ".toList ++ src ∈ header dr src trg ∧ header dr src trg = header dr src trg' := by
  have e : ∀ t : Str, t ≠ [] → t ≠ ".".toList → (if t ≠ [] ∧ t ≠ ".".toList then ["# target path   = ".toList ++ src] else []) = ["# target path   = ".toList ++ src] :=
    fun t a b => if_pos ⟨a, b⟩
  unfold header
  rw [e trg h h1, e trg' h' h1']
  exact ⟨List.mem_append_left _ (List.mem_append_right _ List.mem_cons_self), rfl⟩

/-- **C163 violated**: a misspelt option in one notebook ends the program; the notebooks after it are not converted. -/
theorem C163_stops_violated :
    let a : Str × Str := ("NBTest_1.py".toList, text ["# NBTEST: DEFAULT = NOTEST", "# ## Slow", "f()"])
    let b : Str × Str := ("NBTest_2.py".toList, text ["# ## Prices", "assert g() == 1"])
    (run [] [] [a, b] "TEST".toList fun _ => none).1 = .error .value ∧ defsIn (run [] [] [a, b] "TEST".toList fun _ => none).2 "test_2_.py" = none := by
  decide +kernel

/-! ## Examples -/

example : ∃ code, splitLines code = ["# intro".toList, "import x".toList] ++ [(⟨"Prices".toList, ["a = 1".toList, "# ok".toList]⟩ : Section)].flatMap Section.lines ∧
    (∀ l ∈ ["# intro".toList, "import x".toList], Plain l) ∧ ∀ l ∈ ["a = 1".toList, "# ok".toList], Plain l :=
  ⟨text ["# intro", "import x", "# ## Prices", "a = 1", "# ok"], by decide +kernel⟩

example : ∃ t d, processCode ⟨[], [], [], []⟩ ⟨[], [], [], []⟩ "TEST".toList (text ["import x", "# # Title", "# ## A [NOTEST]", "a = 1"]) "src".toList ".".toList = .ok (t, d) := by
  obtain ⟨t, ht⟩ := process_dflt ⟨[], [], [], []⟩ ⟨[], [], [], []⟩ "TEST".toList "src".toList ".".toList
    (code := text ["import x", "# # Title", "# ## A [NOTEST]", "a = 1"]) (by decide +kernel)
  exact ⟨t, _, ht⟩

example : filterfn "NBTest_1.10.4_Bla.Py".toList = some ⟨"1.10.4".toList, "Bla".toList, "NBTest_1.10.4_Bla.Py".toList, "test_1.10.4_Bla.py".toList⟩ ∧
    filterfn "Test_0000_Bla.py".toList = none := by decide +kernel

example : "test_".toList <+: funcn "NOTEST".toList " Advanced Testing [TEST]  ".toList ∧ ¬ "test_".toList <+: funcn "TEST".toList "A [NOTEST]".toList := by
  decide +kernel

example : let fs : List (Str × Str) := [("NBTest_1.py".toList, text ["# ## A", "a"]), ("README".toList, []), ("NBTest_2.py".toList, text ["# ## B", "b"])]
    (∀ f ∈ fs, ∀ l ∈ splitLines f.2, ¬ "# NBTEST:".toList <+: l) ∧
    fs.Pairwise (fun a b => ((filterfn a.1).bind fun r => (filterfn b.1).map fun r' => decide (r.outfn = r'.outfn)) ≠ some true) := by
  decide +kernel

end Carbon.NbConvert
