import Verif.Helpers.Formulas
import Verif.Prop.CpcContainer
import Verif.Prop.Version
import Verif.Prop.Token
import Mathlib.Data.List.TakeWhile

/-!
# C141: the container of formulas, C142: tags
-/

namespace Carbon

open TokenC (splitChar)
open Prop.Version (splitChar_append splitChar_self)

theorem free {d : Char} {p : Str} (h : d ∉ p) : ∀ c ∈ p, c ≠ d := by
  rintro c hc rfl
  exact h hc

namespace Formulas

variable {ι : Type}

section Keys

/-- C141: the namespace of a key is what comes before its first period; a key without period has the empty one. -/
theorem C141_ns (n key : Str) : ns key = n ↔ (n = [] ∧ '.' ∉ key) ∨ ('.' ∉ n ∧ ∃ r, key = n ++ '.' :: r) := by
  have hsplit : ∀ k : Str, '.' ∈ k → ∃ a r, '.' ∉ a ∧ k = a ++ '.' :: r := by
    intro k
    induction k with
    | nil => intro h; cases h
    | cons c k ih =>
      intro h
      by_cases hc : c = '.'
      · exact ⟨[], k, by simp, by rw [hc]; rfl⟩
      · obtain ⟨a, r, h1, h2⟩ := ih ((List.mem_cons.mp h).resolve_left (Ne.symm hc))
        refine ⟨c :: a, r, ?_, by rw [h2]; rfl⟩
        simp only [List.mem_cons, not_or]
        exact ⟨Ne.symm hc, h1⟩
  have none_ : ∀ k : Str, '.' ∉ k → ns k = [] := by
    intro k hk
    unfold ns nskey
    rw [splitChar_self (free hk)]
    rfl
  have some_ : ∀ a r : Str, '.' ∉ a → ns (a ++ '.' :: r) = a := by
    intro a r ha
    unfold ns nskey
    rw [splitChar_append (free ha)]
    have : splitChar '.' r ≠ [] := by
      cases r with
      | nil => simp [splitChar]
      | cons c r =>
        unfold splitChar
        split
        · simp
        · split <;> simp
    obtain ⟨x, l, hx⟩ := List.exists_cons_of_ne_nil this
    rw [hx]
    rfl
  constructor
  · intro h
    by_cases hk : '.' ∈ key
    · obtain ⟨a, r, ha, rfl⟩ := hsplit key hk
      rw [some_ a r ha] at h
      subst h
      exact Or.inr ⟨ha, r, rfl⟩
    · rw [none_ key hk] at h
      exact Or.inl ⟨h.symm, hk⟩
  · rintro (⟨rfl, hk⟩ | ⟨hn, r, rfl⟩)
    · exact none_ key hk
    · exact some_ n r hn

/-- C141: a key with at most one period consists of its namespace and its name. -/
theorem C141_nskey (n k : Str) (hn : '.' ∉ n) (hk : '.' ∉ k) : nskey k = [[], k] ∧ nskey (n ++ '.' :: k) = [n, k] := by
  unfold nskey
  rw [splitChar_append (free hn), splitChar_self (free hk)]
  exact ⟨rfl, rfl⟩

/-- C141 fails for keys with more periods, which nothing rejects: the pair of namespace and name has three elements or more. -/
theorem C141_nskey_violated (a b c : Str) (ha : '.' ∉ a) (hb : '.' ∉ b) : 3 ≤ (nskey (a ++ '.' :: (b ++ '.' :: c))).length := by
  unfold nskey
  rw [splitChar_append (free ha), splitChar_append (free hb)]
  have : splitChar '.' c ≠ [] := by
    cases c with
    | nil => simp [splitChar]
    | cons x c =>
      unfold splitChar
      split
      · simp
      · split <;> simp
  obtain ⟨x, l, hx⟩ := List.exists_cons_of_ne_nil this
  rw [hx]
  simp

end Keys

theorem fullkey_some {n : Str} (h : n ≠ []) (key : Str) : fullkey (some n) key = n ++ '.' :: key := by
  cases n with
  | nil => exact absurd rfl h
  | cons c n => rfl

section Items

theorem full_of {s : Formulas ι} {k : Str} {i : FItem ι} (h : dictGet s.fdict k = some i) (r : Option Bool) :
    s.getfullitem k r = .ok (some i) := by
  unfold getfullitem
  rw [h]

theorem full_congr {s t : Formulas ι} {k : Str} (h : dictGet s.fdict k = dictGet t.fdict k) (hr : s.raiseonerror = t.raiseonerror)
    (r : Option Bool) : s.getfullitem k r = t.getfullitem k r := by
  unfold getfullitem
  rw [h, hr]

/-- C141: what is added is found, with its title, comment, kind and tags, under the key with the namespace that was given, or else the default
one; and nothing else changes. -/
theorem C141_add (s : Formulas ι) (key : Str) (item : ι) (title comment tagstr n : Option Str) (v : Bool) (k : Str)
    (hk : k = match n.or s.defaultns with
      | none => key
      | some m => if m = [] then key else m ++ '.' :: key) :
    (s.add key item title comment tagstr n v none).1 = .ok item ∧
    (∀ r, (s.add key item title comment tagstr n v none).2.getfullitem k r = .ok (some ⟨item, title, comment, k, v, Tags.fromstr tagstr⟩)) ∧
    ∀ k', k' ≠ k → ∀ r, (s.add key item title comment tagstr n v none).2.getfullitem k' r = s.getfullitem k' r := by
  have hk' : k = fullkey (s.nsOr n) key := by
    rw [hk]
    unfold nsOr fullkey
    cases n.or s.defaultns with
    | none => rfl
    | some m => cases m <;> simp [dotted]
  refine ⟨rfl, fun r => ?_, fun k' h r => ?_⟩
  · refine full_of ?_ r
    unfold add
    dsimp only
    rw [dictGet_set, if_pos hk'.symm, ← hk']
  · refine full_congr ?_ (by rfl) r
    unfold add
    dsimp only
    rw [dictGet_set, if_neg (by rw [← hk']; exact Ne.symm h)]

/-- C141: the ways to read a key. A key that exists gives its item in all of them; for another key the reading raises `KeyError`, gives `None`
or gives the value that was passed. -/
theorem C141_read (s : Formulas ι) (key : Str) :
    (∀ i, s.getfullitem key (some false) = .ok (some i) → ∀ r d, s.getfullitem key r = .ok (some i) ∧ s.getitem key r = .ok (some i.item) ∧
      s.get key d = some i.item ∧ s.isalias key = some (decide (key ≠ i.mainkey)) ∧ ∀ t, s.hastag key t = some (i.tags.has t)) ∧
    (s.getfullitem key (some false) = .ok none → (∀ r, r.getD s.raiseonerror = true → s.getfullitem key r = .error .key ∧
        s.getitem key r = .error .key) ∧ (∀ r, r.getD s.raiseonerror = false → s.getitem key r = .ok none) ∧ (∀ d, s.get key d = d) ∧
        s.isalias key = none ∧ ∀ t, s.hastag key t = none) := by
  cases h : dictGet s.fdict key with
  | some i =>
    constructor
    · intro j hj r d
      rw [full_of h] at hj
      cases hj
      have e := full_of h
      refine ⟨e r, ?_, ?_, ?_, ?_⟩
      · unfold getitem field; rw [e]; rfl
      · unfold get getitem field; rw [e]; rfl
      · unfold isalias; rw [h]; rfl
      · intro t; unfold hastag; rw [h]; rfl
    · intro hj
      rw [full_of h] at hj
      cases hj
  | none =>
    have e : ∀ r, s.getfullitem key r = if r.getD s.raiseonerror then .error .key else .ok none := by
      intro r; unfold getfullitem; rw [h]
    constructor
    · intro j hj
      rw [e] at hj
      cases hj
    · intro _
      refine ⟨fun r hr => ?_, fun r hr => ?_, fun d => ?_, ?_, fun t => ?_⟩
      · have : s.getfullitem key r = .error .key := by rw [e, hr]; rfl
        refine ⟨this, ?_⟩
        unfold getitem field; rw [this]; rfl
      · unfold getitem field; rw [e, hr]; rfl
      · unfold get getitem field; rw [e]; rfl
      · unfold isalias; rw [h]; rfl
      · unfold hastag; rw [h]; rfl

/-- C141: an alias gives the full item of the key at the time, and nothing else changes; an alias for a key that does not exist raises
`KeyError` and changes nothing. -/
theorem C141_alias (s : Formulas ι) (a k : Str) :
    (∀ i, s.getfullitem k (some false) = .ok (some i) → (s.addAlias a k).1 = .ok i.item ∧
      (∀ r, (s.addAlias a k).2.getfullitem a r = .ok (some i)) ∧
      ∀ k', k' ≠ a → ∀ r, (s.addAlias a k).2.getfullitem k' r = s.getfullitem k' r) ∧
    (s.getfullitem k (some false) = .ok none → s.addAlias a k = (.error .key, s)) := by
  cases h : dictGet s.fdict k with
  | some i =>
    have e : s.addAlias a k = (.ok i.item, { s with fdict := dictSet s.fdict a i }) := by
      unfold addAlias
      dsimp only
      rw [h]
    constructor
    · intro j hj
      rw [full_of h] at hj
      cases hj
      rw [e]
      refine ⟨rfl, fun r => full_of ?_ r, fun k' hk r => full_congr ?_ (by rfl) r⟩
      · dsimp only; rw [dictGet_set, if_pos rfl]
      · dsimp only; rw [dictGet_set, if_neg (Ne.symm hk)]
    · intro hj
      rw [full_of h] at hj
      cases hj
  | none =>
    constructor
    · intro j hj
      unfold getfullitem at hj
      rw [h] at hj
      cases hj
    · intro _
      unfold addAlias
      dsimp only
      rw [h]

/-- C141: in a namespace, the alias and the key are both prefixed with its name. -/
theorem C141_alias_ns (s : Formulas ι) (n a k : Str) :
    (s.addAlias a k (some n)) = s.addAlias (n ++ '.' :: a) (n ++ '.' :: k) := rfl

/-- C141: changing the default namespace gives the previous one back, with which the library is as it was. -/
theorem C141_setdefaultns (s : Formulas ι) (n : Option Str) :
    ((s.setdefaultns n).2.setdefaultns (s.setdefaultns n).1).2 = s ∧ ∀ k r, (s.setdefaultns n).2.getfullitem k r = s.getfullitem k r :=
  ⟨rfl, fun _ _ => rfl⟩

theorem aliasAll_none (as : List Str) (k : Str) (i : FItem ι) : ∀ s : Formulas ι, dictGet s.fdict k = some i →
    ∃ d, aliasAll s k none as = (.ok (), { s with fdict := d }) ∧ ∀ k', dictGet d k' = if k' ∈ as then some i else dictGet s.fdict k' := by
  induction as with
  | nil =>
    intro s _
    exact ⟨s.fdict, rfl, fun k' => by simp⟩
  | cons a as ih =>
    intro s h
    have e : s.addAlias a k none = (.ok i.item, { s with fdict := dictSet s.fdict a i }) := by
      unfold addAlias
      dsimp only
      rw [h]
    obtain ⟨d, h1, h2⟩ := ih { s with fdict := dictSet s.fdict a i } (by
      dsimp only
      rw [dictGet_set]
      split
      · rfl
      · exact h)
    refine ⟨d, ?_, fun k' => ?_⟩
    · unfold aliasAll
      rw [e]
      exact h1
    · rw [h2]
      dsimp only
      rw [dictGet_set]
      by_cases hm : k' ∈ as
      · rw [if_pos hm, if_pos (List.mem_cons_of_mem _ hm)]
      · rw [if_neg hm]
        by_cases he : a = k'
        · rw [if_pos he, if_pos (by rw [he]; exact List.mem_cons_self)]
        · rw [if_neg he, if_neg]
          simp only [List.mem_cons, not_or]
          exact ⟨Ne.symm he, hm⟩

/-- C141, as far as it holds for aliases that are passed when an item is added: without any namespace the key and all aliases give the item. -/
theorem C141_aliases_partial (s : Formulas ι) (key : Str) (item : ι) (title comment tagstr : Option Str) (v : Bool) (as : List Str)
    (hd : s.defaultns = none) :
    (s.add key item title comment tagstr none v (some as)).1 = .ok item ∧
    (∀ k', k' = key ∨ k' ∈ as → ∀ r, (s.add key item title comment tagstr none v (some as)).2.getfullitem k' r =
      .ok (some ⟨item, title, comment, key, v, Tags.fromstr tagstr⟩)) ∧
    ∀ k', k' ≠ key → k' ∉ as → ∀ r, (s.add key item title comment tagstr none v (some as)).2.getfullitem k' r = s.getfullitem k' r := by
  obtain ⟨i, hi⟩ : ∃ i : FItem ι, i = ⟨item, title, comment, key, v, Tags.fromstr tagstr⟩ := ⟨_, rfl⟩
  have hn : s.nsOr none = none := by unfold nsOr; rw [hd]; rfl
  obtain ⟨d, h1, h2⟩ := aliasAll_none as key i { s with fdict := dictSet s.fdict key i } (by dsimp only; rw [dictGet_set, if_pos rfl])
  have e : s.add key item title comment tagstr none v (some as) = (.ok item, { s with fdict := d }) := by
    unfold add
    dsimp only
    rw [hn]
    dsimp only [fullkey]
    rw [← hi, h1]
  rw [e]
  refine ⟨rfl, fun k' hk r => ?_, fun k' hk hk2 r => ?_⟩
  · rw [← hi]
    refine full_of ?_ r
    dsimp only
    rw [h2]
    split
    · rfl
    · rename_i hm
      dsimp only
      rw [dictGet_set, if_pos (hk.resolve_right hm).symm]
  · refine full_congr ?_ (by rfl) r
    dsimp only
    rw [h2, if_neg hk2]
    dsimp only
    rw [dictGet_set, if_neg (Ne.symm hk)]

/-- C141 fails for aliases in a namespace: the key is already complete when it is passed on together with the namespace, which is put in front
once more. The call raises `KeyError` after the item is stored, unless there happens to be a formula under the doubled name. -/
theorem C141_aliases_violated (s : Formulas ι) (key a n : Str) (as : List Str) (item : ι) (title comment tagstr : Option Str) (v : Bool)
    (hn : n ≠ []) (habs : s.getfullitem (n ++ '.' :: (n ++ '.' :: key)) (some false) = .ok none) :
    (s.add key item title comment tagstr (some n) v (some (a :: as))).1 = .error .key ∧
    ∀ r, (s.add key item title comment tagstr (some n) v (some (a :: as))).2.getfullitem (n ++ '.' :: key) r =
      .ok (some ⟨item, title, comment, n ++ '.' :: key, v, Tags.fromstr tagstr⟩) := by
  obtain ⟨i, hi⟩ : ∃ i : FItem ι, i = ⟨item, title, comment, n ++ '.' :: key, v, Tags.fromstr tagstr⟩ := ⟨_, rfl⟩
  have hnone : dictGet s.fdict (n ++ '.' :: (n ++ '.' :: key)) = none := by
    cases h : dictGet s.fdict (n ++ '.' :: (n ++ '.' :: key)) with
    | none => rfl
    | some j => rw [full_of h] at habs; cases habs
  have hne : n ++ '.' :: key ≠ n ++ '.' :: (n ++ '.' :: key) := by
    intro e
    have := congrArg List.length e
    simp at this
    omega
  have e : s.add key item title comment tagstr (some n) v (some (a :: as)) =
      (.error .key, { s with fdict := dictSet s.fdict (n ++ '.' :: key) i }) := by
    unfold add nsOr
    dsimp only
    rw [show (some n).or s.defaultns = some n from rfl, fullkey_some hn, ← hi]
    unfold aliasAll addAlias
    dsimp only [dotted]
    rw [dictGet_set, if_neg hne, hnone]
  rw [e]
  refine ⟨rfl, fun r => ?_⟩
  rw [← hi]
  refine full_of ?_ r
  dsimp only
  rw [dictGet_set, if_pos rfl]

/-- C141 fails for the default namespace of the constructor, which is ignored: an item added to a new container with a default namespace is not
found in that namespace. -/
theorem C141_default_violated (n key : Str) (item : ι) (b : Bool) (hn : n ≠ []) :
    (new b (some n) : Formulas ι) = new b none ∧
    (((new b (some n) : Formulas ι).add key item).2.getfullitem (n ++ '.' :: key) (some true) = .error .key) ∧
    ((((new b : Formulas ι).setdefaultns (some n)).2.add key item).2.getitem (n ++ '.' :: key) = .ok (some item)) := by
  refine ⟨rfl, ?_, ?_⟩
  · have hne : key ≠ n ++ '.' :: key := by
      intro e
      have := congrArg List.length e
      simp at this
      omega
    have : dictGet ((new b (some n) : Formulas ι).add key item).2.fdict (n ++ '.' :: key) = none := by
      simp [new, add, nsOr, fullkey, dictSet, dictGet, hne]
    unfold getfullitem
    rw [this]
    rfl
  · have := (C141_add ((new b : Formulas ι).setdefaultns (some n)).2 key item none none none none false (n ++ '.' :: key) (by
      simp [setdefaultns, hn])).2.1
    unfold getitem field
    rw [this]
    rfl

/-- C141 fails for aliases of an item that is replaced: they go on giving the old item, which still has the key as its main key. -/
theorem C141_stale_violated (s : Formulas ι) (k a : Str) (x y : ι) (hd : s.defaultns = none) (ha : a ≠ k) :
    let t := (((s.add k x).2.addAlias a k).2.add k y).2
    t.getitem k = .ok (some y) ∧ t.getitem a = .ok (some x) ∧ t.isalias a = some true := by
  intro t
  have hk : k = match (none : Option Str).or s.defaultns with
      | none => k
      | some m => if m = [] then k else m ++ '.' :: k := by rw [hd]; rfl
  obtain ⟨_, h1, _⟩ := C141_add s k x none none none none false k hk
  obtain ⟨h2, _⟩ := C141_alias (s.add k x).2 a k
  obtain ⟨_, h3, _⟩ := h2 _ (h1 _)
  have hdef : ((s.add k x).2.addAlias a k).2.defaultns = none := by
    unfold addAlias
    dsimp only
    split <;> exact hd
  obtain ⟨_, h4, h5⟩ := C141_add ((s.add k x).2.addAlias a k).2 k y none none none none false k (by rw [hdef]; rfl)
  have ra := (C141_read t a).1 _ (by rw [h5 a ha]; exact h3 _)
  have rk := (C141_read t k).1 _ (h4 _)
  obtain ⟨_, e1, _, e2, _⟩ := ra none none
  obtain ⟨_, e3, _, _, _⟩ := rk none none
  refine ⟨e3, e1, ?_⟩
  rw [e2]
  simp [ha]

/-- C141 fails for `isalias`, which is documented to be true for primary keys: it is false for them and true for aliases. -/
theorem C141_isalias_violated (s : Formulas ι) (k a : Str) (x : ι) (hd : s.defaultns = none) (ha : a ≠ k) :
    (s.add k x).2.isalias k = some false ∧ ((s.add k x).2.addAlias a k).2.isalias a = some true := by
  have hk : k = match (none : Option Str).or s.defaultns with
      | none => k
      | some m => if m = [] then k else m ++ '.' :: k := by rw [hd]; rfl
  obtain ⟨_, h1, _⟩ := C141_add s k x none none none none false k hk
  obtain ⟨_, h3, _⟩ := (C141_alias (s.add k x).2 a k).1 _ (h1 _)
  obtain ⟨_, _, _, e1, _⟩ := (C141_read _ k).1 _ (h1 _) none none
  obtain ⟨_, _, _, e2, _⟩ := (C141_read _ a).1 _ (h3 _) none none
  rw [e1, e2]
  simp [ha]

end Items

section Listing

theorem dictSet_keys {β : Type} (d : List (Str × β)) (k : Str) (v : β) :
    (dictSet d k v).map Prod.fst = if k ∈ d.map Prod.fst then d.map Prod.fst else d.map Prod.fst ++ [k] := by
  induction d with
  | nil => rfl
  | cons p d ih =>
    obtain ⟨a, b⟩ := p
    unfold dictSet
    by_cases h : a = k
    · subst h
      simp
    · rw [if_neg h, List.map_cons, ih]
      by_cases hk : k ∈ d.map Prod.fst
      · rw [if_pos hk, if_pos (by rw [List.map_cons]; exact List.mem_cons_of_mem _ hk), List.map_cons]
      · rw [if_neg hk, if_neg (by rw [List.map_cons, List.mem_cons, not_or]; exact ⟨Ne.symm h, hk⟩), List.map_cons, List.cons_append]

theorem dictGet_of_nodup {β : Type} : ∀ {d : List (Str × β)} {k : Str} {v : β}, (d.map Prod.fst).Nodup →
    (dictGet d k = some v ↔ (k, v) ∈ d)
  | [], k, v, _ => by simp [dictGet]
  | (a, b) :: d, k, v, h => by
    rw [List.map_cons, List.nodup_cons] at h
    unfold dictGet
    rw [List.mem_cons]
    by_cases he : a = k
    · subst he
      rw [if_pos rfl]
      constructor
      · intro hb; left; cases hb; rfl
      · rintro (hb | hb)
        · cases hb; rfl
        · exact absurd (List.mem_map_of_mem (f := Prod.fst) hb) h.1
    · rw [if_neg he, dictGet_of_nodup h.2]
      constructor
      · exact Or.inr
      · rintro (hb | hb)
        · cases hb; exact absurd rfl he
        · exact hb

theorem dictSet_nodup {β : Type} {d : List (Str × β)} (h : (d.map Prod.fst).Nodup) (k : Str) (v : β) :
    ((dictSet d k v).map Prod.fst).Nodup := by
  rw [dictSet_keys]
  split
  · exact h
  · rename_i hk
    rw [List.nodup_append]
    refine ⟨h, by simp, ?_⟩
    intro a ha b hb
    rw [List.mem_singleton] at hb
    subst hb
    rintro rfl
    exact hk ha

/-- The containers that can be made with the methods of this class. -/
inductive Made : Formulas ι → Prop where
  | new (b : Bool) (n : Option Str) : Made (new b n)
  | setdefaultns {s : Formulas ι} (h : Made s) (n : Option Str) : Made (s.setdefaultns n).2
  | add {s : Formulas ι} (h : Made s) (key : Str) (item : ι) (title comment tagstr n : Option Str) (v : Bool) (as : Option (List Str)) :
      Made (s.add key item title comment tagstr n v as).2
  | addAlias {s : Formulas ι} (h : Made s) (a k : Str) (n : Option Str) : Made (s.addAlias a k n).2
  | addfrom {s o : Formulas ι} (hs : Made s) (ho : Made o) (n : Option Str) : Made (s.addfrom o n)

theorem addAlias_cases (s : Formulas ι) (a k : Str) (n : Option Str) :
    (s.addAlias a k n).2 = s ∨ ∃ a' k' i, dictGet s.fdict k' = some i ∧ (s.addAlias a k n).2 = { s with fdict := dictSet s.fdict a' i } := by
  unfold addAlias
  dsimp only
  split
  · rename_i i hi
    exact Or.inr ⟨_, _, i, hi, rfl⟩
  · exact Or.inl rfl

theorem aliasAll_induct {P : Formulas ι → Prop} (h : ∀ s a k n, P s → P (Formulas.addAlias s a k n).2) (k : Str) (n : Option Str) (as : List Str) :
    ∀ s, P s → P (aliasAll s k n as).2 := by
  induction as with
  | nil => intro s hs; exact hs
  | cons a as ih =>
    intro s hs
    have := h s a k n hs
    unfold aliasAll
    split
    · rename_i s' e
      rw [e] at this
      exact ih s' this
    · rename_i s' e
      rw [e] at this
      exact this

theorem add_induct {P : Formulas ι → Prop} (h : ∀ s a k n, P s → P (Formulas.addAlias s a k n).2) (s : Formulas ι) (key : Str) (item : ι)
    (title comment tagstr n : Option Str) (v : Bool) (as : Option (List Str))
    (h0 : P { s with fdict := dictSet s.fdict (fullkey (s.nsOr n) key) ⟨item, title, comment, fullkey (s.nsOr n) key, v, Tags.fromstr tagstr⟩ }) :
    P (s.add key item title comment tagstr n v as).2 := by
  unfold add
  dsimp only
  split
  · exact h0
  · rename_i l
    have := aliasAll_induct h (fullkey (s.nsOr n) key) (s.nsOr n) l _ h0
    split
    · rename_i s'' e
      rw [e] at this
      exact this
    · rename_i s'' e
      rw [e] at this
      exact this

theorem Made.nodup {s : Formulas ι} (h : Made s) : (s.fdict.map Prod.fst).Nodup := by
  have al : ∀ (s : Formulas ι) (a k : Str) (n : Option Str), (s.fdict.map Prod.fst).Nodup → (((s.addAlias a k n).2).fdict.map Prod.fst).Nodup := by
    intro s a k n hs
    rcases addAlias_cases s a k n with e | ⟨a', k', i, _, e⟩
    · rw [e]; exact hs
    · rw [e]; exact dictSet_nodup hs _ _
  induction h with
  | new b n => exact List.nodup_nil
  | setdefaultns h n ih => exact ih
  | add h key item title comment tagstr n v as ih =>
    exact add_induct (P := fun s => (s.fdict.map Prod.fst).Nodup) al _ _ _ _ _ _ _ _ _ (dictSet_nodup ih _ _)
  | addAlias h a k n ih => exact al _ _ _ _ ih
  | @addfrom s o hs ho n ihs iho =>
    show ((o.fdict.foldl (fun d kv => dictSet d (newkey n kv.1) kv.2) s.fdict).map Prod.fst).Nodup
    generalize s.fdict = d at ihs
    clear iho
    induction o.fdict generalizing d with
    | nil => exact ihs
    | cons p l ih => exact ih _ (dictSet_nodup ihs _ _)

/-- C141: the keys that are listed are those that exist, each once, of the kind and from the namespace that is asked for. -/
theorem C141_keys (s : Formulas ι) (hs : Made s) (vars : Option Bool) (n : Option Str) :
    (s.keys vars n).Nodup ∧ ∀ k, k ∈ s.keys vars n ↔ ∃ i, s.getfullitem k (some false) = .ok (some i) ∧
      (∀ v, vars = some v → i.isvariable = v) ∧
      ∀ m, n = some m → (m = [] ∧ '.' ∉ k) ∨ ('.' ∉ m ∧ ∃ r, k = m ++ '.' :: r) := by
  have nd := hs.nodup
  have hfull : ∀ k i, s.getfullitem k (some false) = .ok (some i) ↔ dictGet s.fdict k = some i := by
    intro k i
    unfold getfullitem
    split
    · rename_i j hj
      rw [hj]
      constructor
      · intro h; cases h; rfl
      · intro h; cases h; rfl
    · rename_i hj
      rw [hj]
      constructor
      · intro h; cases h
      · intro h; cases h
  constructor
  · unfold keys
    exact nd.sublist (List.filter_sublist.map _)
  · intro k
    unfold keys
    rw [List.mem_map]
    constructor
    · rintro ⟨⟨k', i⟩, hm, rfl⟩
      rw [List.mem_filter, Bool.and_eq_true] at hm
      refine ⟨i, (hfull _ _).mpr ((dictGet_of_nodup nd).mpr hm.1), ?_, ?_⟩
      · rintro v rfl
        simpa using hm.2.1
      · rintro m rfl
        have : ns k' = m := by simpa using hm.2.2
        exact (C141_ns m k').mp this
    · rintro ⟨i, hi, h1, h2⟩
      refine ⟨(k, i), ?_, rfl⟩
      rw [List.mem_filter, Bool.and_eq_true]
      refine ⟨(dictGet_of_nodup nd).mp ((hfull _ _).mp hi), ?_, ?_⟩
      · cases vars with
        | none => rfl
        | some v => simpa using h1 v rfl
      · cases n with
        | none => rfl
        | some m => simpa using (C141_ns m k).mpr (h2 m rfl)

/-- C141 fails for namespaces with a period: an item that is added with such a namespace is not listed for it. -/
theorem C141_keys_violated (s : Formulas ι) (hs : Made s) (key : Str) (item : ι) (n : Str) (hn : '.' ∈ n) :
    (∃ i, (s.add key item (ns := some n)).2.getfullitem (n ++ '.' :: key) = .ok (some i) ∧ i.item = item) ∧
    n ++ '.' :: key ∉ (s.add key item (ns := some n)).2.keys none (some n) ∧ (s.add key item (ns := some n)).2.keys none (some n) = [] := by
  have hne : n ≠ [] := by rintro rfl; cases hn
  have hall : ∀ k, k ∉ (s.add key item (ns := some n)).2.keys none (some n) := by
    intro k hk
    obtain ⟨i, _, _, h⟩ := ((C141_keys _ (Made.add hs key item none none none (some n) false none) none (some n)).2 k).mp hk
    rcases h n rfl with ⟨h, _⟩ | ⟨h, _⟩
    · exact hne h
    · exact h hn
  refine ⟨⟨_, (C141_add s key item none none none (some n) false (n ++ '.' :: key) (by simp [hne])).2.1 none, rfl⟩, hall _, ?_⟩
  exact List.eq_nil_iff_forall_not_mem.mpr hall

theorem foldl_dictSet_new {β : Type} : ∀ (l d : List (Str × β)), ((d ++ l).map Prod.fst).Nodup →
    l.foldl (fun d kv => dictSet d kv.1 kv.2) d = d ++ l
  | [], d, _ => by simp
  | (k, v) :: l, d, h => by
    have hk : k ∉ d.map Prod.fst := by
      rw [List.map_append, List.map_cons, List.nodup_append] at h
      intro hm
      exact h.2.2 k hm k List.mem_cons_self rfl
    have e : dictSet d k v = d ++ [(k, v)] := by
      clear h
      induction d with
      | nil => rfl
      | cons p d ih =>
        obtain ⟨a, b⟩ := p
        simp only [List.map_cons, List.mem_cons, not_or] at hk
        unfold dictSet
        rw [if_neg (Ne.symm hk.1), ih hk.2, List.cons_append]
    rw [List.foldl_cons, e, foldl_dictSet_new l _ (by simpa using h)]
    simp

/-- C141: all items together are the dictionary of the keys with their items. -/
theorem C141_getall (s : Formulas ι) (hs : Made s) (r : Option Bool) :
    s.getall none r = .ok (s.fdict.map fun kv => (kv.1, some kv.2)) ∧ s.fdict.map Prod.fst = s.keys ∧
      ∀ kv ∈ s.fdict, s.getfullitem kv.1 r = .ok (some kv.2) := by
  have nd := hs.nodup
  have hfull : ∀ kv ∈ s.fdict, s.getfullitem kv.1 r = .ok (some kv.2) := fun kv hkv => full_of ((dictGet_of_nodup nd).mpr hkv) r
  have hkeys : s.fdict.map Prod.fst = s.keys := by
    unfold keys
    congr 1
    symm
    rw [List.filter_eq_self]
    intro a _
    rfl
  refine ⟨?_, hkeys, hfull⟩
  have hm : ∀ l : List (Str × FItem ι), (∀ kv ∈ l, s.getfullitem kv.1 r = .ok (some kv.2)) →
      (l.map Prod.fst).mapM (fun k => (s.getfullitem k r).map fun i => (k, i)) = .ok (l.map fun kv => (kv.1, some kv.2)) := by
    intro l
    induction l with
    | nil => intro _; rfl
    | cons p l ih =>
      intro h
      rw [List.map_cons, List.mapM_cons, h p List.mem_cons_self, ih fun kv hkv => h kv (List.mem_cons_of_mem _ hkv)]
      rfl
  unfold getall
  rw [Option.getD_none, ← hkeys, hm _ hfull, Py.ok_bind, foldl_dictSet_new _ [] (by
    rw [List.nil_append, List.map_map]
    exact nd)]
  rfl

/-- A key without period gets the namespace, if one is given. -/
def placed (n : Option Str) (j : Str) : Str :=
  match n with
  | none => j
  | some m => if m = [] ∨ '.' ∈ j then j else m ++ '.' :: j

/-- C141: all items of another container are taken over, those without a namespace into the one that is given; they replace what was there,
and what has another key stays. The hypothesis excludes that two of them get the same key. -/
theorem C141_addfrom (s o : Formulas ι) (ho : Made o) (n : Option Str) (k : Str) (k' : Str)
    (hk : k' = placed n k)
    (hsame : ∀ j ∈ o.keys, ∀ i, o.getfullitem k (some false) = .ok (some i) → placed n j = k' → j = k) :
    (∀ i, o.getfullitem k (some false) = .ok (some i) → ∀ r, (s.addfrom o n).getfullitem k' r = .ok (some i)) ∧
    ((∀ j ∈ o.keys, placed n j ≠ k') → ∀ r, (s.addfrom o n).getfullitem k' r = s.getfullitem k' r) := by
  have hnew : ∀ j : Str, placed n j = newkey n j := by
    intro j
    unfold newkey placed
    have hlen : (splitChar '.' j).length = 1 ↔ '.' ∉ j := by
      constructor
      · intro h hj
        have hsplit : ∃ a b : Str, '.' ∉ a ∧ j = a ++ '.' :: b := by
          clear h
          induction j with
          | nil => cases hj
          | cons c j ih =>
            by_cases hc : c = '.'
            · exact ⟨[], j, by simp, by rw [hc]; rfl⟩
            · obtain ⟨a, b, h1, h2⟩ := ih ((List.mem_cons.mp hj).resolve_left (Ne.symm hc))
              refine ⟨c :: a, b, ?_, by rw [h2]; rfl⟩
              simp only [List.mem_cons, not_or]
              exact ⟨Ne.symm hc, h1⟩
        obtain ⟨a, b, ha, rfl⟩ := hsplit
        rw [splitChar_append (free ha)] at h
        have h0 : splitChar '.' b = [] := by simpa using h
        cases b with
        | nil => simp [splitChar] at h0
        | cons c b =>
          unfold splitChar at h0
          split at h0
          · cases h0
          · split at h0 <;> cases h0
      · intro h
        rw [splitChar_self (free h)]
        rfl
    cases n with
    | none => simp [fullkey]
    | some m =>
      by_cases hj : '.' ∈ j
      · rw [if_neg (fun h => (hlen.mp h) hj)]
        dsimp only
        rw [if_pos (Or.inr hj)]
      · rw [if_pos (hlen.mpr hj)]
        cases m with
        | nil => simp [fullkey]
        | cons c m => simp [fullkey, dotted, hj]
  simp only [hnew] at hk hsame ⊢
  obtain ⟨hall, hkeys, _⟩ := C141_getall o ho none
  have nd := ho.nodup
  have fold : ∀ (l d : List (Str × FItem ι)), (∀ kv ∈ l, newkey n kv.1 ≠ k') →
      dictGet (l.foldl (fun d kv => dictSet d (newkey n kv.1) kv.2) d) k' = dictGet d k' := by
    intro l
    induction l with
    | nil => intro d _; rfl
    | cons p l ih =>
      intro d h
      rw [List.foldl_cons, ih _ (fun kv hkv => h kv (List.mem_cons_of_mem _ hkv)), dictGet_set, if_neg (h p List.mem_cons_self)]
  constructor
  · intro i hi r
    refine full_of ?_ r
    show dictGet (o.fdict.foldl (fun d kv => dictSet d (newkey n kv.1) kv.2) s.fdict) k' = some i
    have hmem : (k, i) ∈ o.fdict := by
      refine (dictGet_of_nodup nd).mp ?_
      unfold getfullitem at hi
      split at hi
      · rename_i j hj
        cases hi
        exact hj
      · cases hi
    obtain ⟨l1, l2, hl⟩ := List.append_of_mem hmem
    rw [hl, List.foldl_append, List.foldl_cons, fold l2 _ ?_, dictGet_set, if_pos hk.symm]
    intro kv hkv e
    have hin : kv ∈ o.fdict := by rw [hl]; exact List.mem_append_right _ (List.mem_cons_of_mem _ hkv)
    have := hsame kv.1 (by rw [← hkeys]; exact List.mem_map_of_mem hin) i hi e
    rw [hl, List.map_append, List.map_cons, List.nodup_append] at nd
    exact (List.nodup_cons.mp nd.2.1).1 (List.mem_map.mpr ⟨kv, hkv, this⟩)
  · intro h r
    refine full_congr ?_ (by rfl) r
    refine fold _ _ ?_
    intro kv hkv
    exact h kv.1 (by rw [← hkeys]; exact List.mem_map_of_mem hkv)

/-- C141 fails for containers that are taken over into a namespace: the items keep the main key they had, so an item counts as alias under the
only key it has. -/
theorem C141_moved_violated (s : Formulas ι) (key n : Str) (item : ι) (hk : '.' ∉ key) (hn : n ≠ []) :
    let o := ((new : Formulas ι).add key item).2
    o.isalias key = some false ∧ (s.addfrom o (some n)).isalias (n ++ '.' :: key) = some true ∧
      ∃ i, (s.addfrom o (some n)).getfullitem (n ++ '.' :: key) = .ok (some i) ∧ i.mainkey = key := by
  intro o
  have ho : Made o := Made.add (Made.new _ _) _ _ _ _ _ _ _ _
  obtain ⟨_, h1, h2⟩ := C141_add (new : Formulas ι) key item none none none none false key rfl
  obtain ⟨_, _, _, e1, _⟩ := (C141_read o key).1 _ (h1 _) none none
  have hkey : ∀ j ∈ o.keys, j = key := by
    intro j hj
    by_contra hne
    obtain ⟨i, hi, _⟩ := ((C141_keys o ho none none).2 j).mp hj
    have := h2 j hne (some false)
    rw [show (new.add key item none none none none false none).2 = o from rfl, hi] at this
    cases this
  obtain ⟨h3, _⟩ := C141_addfrom s o ho (some n) key (n ++ '.' :: key) (by simp [placed, hn, hk]) (fun j hj _ _ _ => hkey j hj)
  have h4 := h3 _ (h1 _)
  obtain ⟨_, _, _, e2, _⟩ := (C141_read (s.addfrom o (some n)) (n ++ '.' :: key)).1 _ (h4 _) none none
  refine ⟨?_, ?_, ⟨_, h4 none, rfl⟩⟩
  · rw [e1]; simp
  · rw [e2]
    have : n ++ '.' :: key ≠ key := by
      intro e
      have := congrArg List.length e
      simp at this
      omega
    simp [this]

/-- The containers that are made without taking over others into a namespace. -/
inductive Plain : Formulas ι → Prop where
  | new (b : Bool) (n : Option Str) : Plain (new b n)
  | setdefaultns {s : Formulas ι} (h : Plain s) (n : Option Str) : Plain (s.setdefaultns n).2
  | add {s : Formulas ι} (h : Plain s) (key : Str) (item : ι) (title comment tagstr n : Option Str) (v : Bool) (as : Option (List Str)) :
      Plain (s.add key item title comment tagstr n v as).2
  | addAlias {s : Formulas ι} (h : Plain s) (a k : Str) (n : Option Str) : Plain (s.addAlias a k n).2
  | addfrom {s o : Formulas ι} (hs : Plain s) (ho : Plain o) : Plain (s.addfrom o none)

theorem Plain.made {s : Formulas ι} (h : Plain s) : Made s := by
  induction h with
  | new b n => exact .new b n
  | setdefaultns h n ih => exact .setdefaultns ih n
  | add h key item title comment tagstr n v as ih => exact .add ih _ _ _ _ _ _ _ _
  | addAlias h a k n ih => exact .addAlias ih _ _ _
  | addfrom hs ho ihs iho => exact .addfrom ihs iho none

/-- C141, as far as it holds for main keys: in a container made without taking over others into a namespace the main key of each item is a
key. -/
theorem C141_mainkey_partial (s : Formulas ι) (h : Plain s) (k : Str) (i : FItem ι) (hi : s.getfullitem k (some false) = .ok (some i)) :
    i.mainkey ∈ s.keys := by
  have key : ∀ kv ∈ s.fdict, kv.2.mainkey ∈ s.fdict.map Prod.fst := by
    have grow : ∀ (d : List (Str × FItem ι)) (a : Str) (i : FItem ι), (∀ kv ∈ d, kv.2.mainkey ∈ d.map Prod.fst) →
        (i.mainkey = a ∨ i.mainkey ∈ d.map Prod.fst) → ∀ kv ∈ dictSet d a i, kv.2.mainkey ∈ (dictSet d a i).map Prod.fst := by
      intro d a i hd hi kv hkv
      have sub : ∀ x, x = a ∨ x ∈ d.map Prod.fst → x ∈ (dictSet d a i).map Prod.fst := by
        intro x hx
        rw [dictSet_keys]
        split
        · rename_i ha
          rcases hx with rfl | hx
          · exact ha
          · exact hx
        · rcases hx with rfl | hx
          · exact List.mem_append_right _ (List.mem_singleton.mpr rfl)
          · exact List.mem_append_left _ hx
      have : kv = (a, i) ∨ kv ∈ d := by
        clear sub hd hi
        induction d with
        | nil => exact Or.inl (List.mem_singleton.mp hkv)
        | cons p d ih =>
          obtain ⟨x, y⟩ := p
          unfold dictSet at hkv
          by_cases hx : x = a
          · rw [if_pos hx] at hkv
            rcases List.mem_cons.mp hkv with h | h
            · exact Or.inl h
            · exact Or.inr (List.mem_cons_of_mem _ h)
          · rw [if_neg hx] at hkv
            rcases List.mem_cons.mp hkv with h | h
            · exact Or.inr (by rw [h]; exact List.mem_cons_self)
            · rcases ih h with h | h
              · exact Or.inl h
              · exact Or.inr (List.mem_cons_of_mem _ h)
      rcases this with rfl | hin
      · exact sub _ hi
      · exact sub _ (Or.inr (hd kv hin))
    have al : ∀ (s : Formulas ι) (a k : Str) (n : Option Str), ((s.fdict.map Prod.fst).Nodup ∧ ∀ kv ∈ s.fdict, kv.2.mainkey ∈ s.fdict.map Prod.fst) →
        (((s.addAlias a k n).2).fdict.map Prod.fst).Nodup ∧ ∀ kv ∈ ((s.addAlias a k n).2).fdict, kv.2.mainkey ∈ ((s.addAlias a k n).2).fdict.map Prod.fst := by
      intro s a k n hs
      rcases addAlias_cases s a k n with e | ⟨a', k', i, hi, e⟩
      · rw [e]; exact hs
      · rw [e]
        exact ⟨dictSet_nodup hs.1 _ _, grow _ _ _ hs.2 (Or.inr (hs.2 (k', i) ((dictGet_of_nodup hs.1).mp hi)))⟩
    clear hi
    induction h with
    | new b n => intro kv hkv; cases hkv
    | setdefaultns h n ih => exact ih
    | add h key item title comment tagstr n v as ih =>
      exact (add_induct (P := fun s => (s.fdict.map Prod.fst).Nodup ∧ ∀ kv ∈ s.fdict, kv.2.mainkey ∈ s.fdict.map Prod.fst) al _ _ _ _ _ _ _ _ _
        ⟨dictSet_nodup h.made.nodup _ _, grow _ _ _ ih (Or.inl rfl)⟩).2
    | addAlias h a k n ih => exact (al _ a k n ⟨h.made.nodup, ih⟩).2
    | @addfrom s o hs ho ihs iho =>
      have hnk : ∀ j : Str, newkey none j = j := by
        intro j
        unfold newkey
        split <;> rfl
      show ∀ kv ∈ o.fdict.foldl (fun d kv => dictSet d (newkey none kv.1) kv.2) s.fdict,
        kv.2.mainkey ∈ (o.fdict.foldl (fun d kv => dictSet d (newkey none kv.1) kv.2) s.fdict).map Prod.fst
      simp only [hnk]
      have gen : ∀ (l d : List (Str × FItem ι)), (∀ kv ∈ d, kv.2.mainkey ∈ d.map Prod.fst ∨ kv.2.mainkey ∈ l.map Prod.fst) →
          (∀ kv ∈ l, kv.2.mainkey ∈ d.map Prod.fst ∨ kv.2.mainkey ∈ l.map Prod.fst) →
          ∀ kv ∈ l.foldl (fun d kv => dictSet d kv.1 kv.2) d, kv.2.mainkey ∈ (l.foldl (fun d kv => dictSet d kv.1 kv.2) d).map Prod.fst := by
        intro l
        induction l with
        | nil =>
          intro d hd _ kv hkv
          rcases hd kv hkv with h | h
          · exact h
          · cases h
        | cons p l ih =>
          intro d hd hl
          have keys' : ∀ x, x ∈ d.map Prod.fst ∨ x ∈ (p :: l).map Prod.fst → x ∈ (dictSet d p.1 p.2).map Prod.fst ∨ x ∈ l.map Prod.fst := by
            intro x hx
            rw [dictSet_keys]
            rcases hx with hx | hx
            · left
              split
              · exact hx
              · exact List.mem_append_left _ hx
            · rw [List.map_cons, List.mem_cons] at hx
              rcases hx with rfl | hx
              · left
                split
                · assumption
                · exact List.mem_append_right _ (List.mem_singleton.mpr rfl)
              · exact Or.inr hx
          rw [List.foldl_cons]
          apply ih
          · intro kv hkv
            apply keys'
            have : kv = p ∨ kv ∈ d := by
              clear hd hl keys' ih
              induction d with
              | nil => exact Or.inl (List.mem_singleton.mp hkv)
              | cons q d ih =>
                obtain ⟨x, y⟩ := q
                unfold dictSet at hkv
                by_cases hx : x = p.1
                · rw [if_pos hx] at hkv
                  rcases List.mem_cons.mp hkv with h | h
                  · exact Or.inl h
                  · exact Or.inr (List.mem_cons_of_mem _ h)
                · rw [if_neg hx] at hkv
                  rcases List.mem_cons.mp hkv with h | h
                  · exact Or.inr (by rw [h]; exact List.mem_cons_self)
                  · rcases ih h with h | h
                    · exact Or.inl h
                    · exact Or.inr (List.mem_cons_of_mem _ h)
            rcases this with rfl | h
            · exact hl _ List.mem_cons_self
            · exact hd kv h
          · intro kv hkv
            exact keys' _ (hl kv (List.mem_cons_of_mem _ hkv))
      exact gen o.fdict s.fdict (fun kv h => Or.inl (ihs kv h)) (fun kv h => Or.inr (iho kv h))
  rw [← (C141_getall s h.made none).2.1]
  refine key (k, i) ?_
  refine (dictGet_of_nodup h.made.nodup).mp ?_
  unfold getfullitem at hi
  split at hi
  · rename_i j hj
    cases hi
    exact hj
  · cases hi

end Listing

section Filter

/-- The tag of a key. -/
def tag (k : Str) : Str := "$$=".toList ++ k ++ "=$$".toList

theorem tag_eq (k b : Str) : tag k ++ b = '$' :: '$' :: '=' :: (k ++ '=' :: '$' :: '$' :: b) := by
  unfold tag
  rw [show "$$=".toList = ['$', '$', '='] by decide +kernel, show "=$$".toList = ['=', '$', '$'] by decide +kernel]
  simp

/-- A key that a tag can have. -/
structure TagKey (k : Str) : Prop where
  some : k ≠ []
  chars : ∀ c ∈ k, ('A' ≤ c ∧ c ≤ 'Z') ∨ ('a' ≤ c ∧ c ≤ 'z') ∨ ('0' ≤ c ∧ c ≤ '9') ∨ c = '_' ∨ c = '.'

theorem keyChar_iff (c : Char) : keyChar c = true ↔
    ('A' ≤ c ∧ c ≤ 'Z') ∨ ('a' ≤ c ∧ c ≤ 'z') ∨ ('0' ≤ c ∧ c ≤ '9') ∨ c = '_' ∨ c = '.' := by
  unfold keyChar
  simp only [Bool.or_eq_true, Bool.and_eq_true, decide_eq_true_eq]
  tauto

theorem matchTag_tag {k : Str} (hk : TagKey k) (b : Str) : matchTag (tag k ++ b) = some (k, b) := by
  have hall : ∀ c ∈ k, keyChar c = true := fun c hc => (keyChar_iff c).mpr (hk.chars c hc)
  have h1 : (k ++ '=' :: '$' :: '$' :: b).takeWhile keyChar = k := by
    rw [List.takeWhile_append_of_pos hall]
    simp [List.takeWhile_cons, show keyChar '=' = false by decide +kernel]
  have h2 : (k ++ '=' :: '$' :: '$' :: b).dropWhile keyChar = '=' :: '$' :: '$' :: b := by
    rw [List.dropWhile_append_of_pos hall]
    simp [List.dropWhile_cons, show keyChar '=' = false by decide +kernel]
  obtain ⟨c, k', rfl⟩ := List.exists_cons_of_ne_nil hk.some
  rw [tag_eq]
  simp only [matchTag, h1, h2]

theorem matchTag_some {s k r : Str} (h : matchTag s = some (k, r)) : TagKey k ∧ s = tag k ++ r := by
  unfold matchTag at h
  split at h
  · rename_i t
    dsimp only at h
    split at h
    · rename_i c k' r' e1 e2
      cases h
      refine ⟨⟨by rw [e1]; simp, fun x hx => (keyChar_iff x).mp (List.mem_takeWhile_imp hx)⟩, ?_⟩
      rw [tag_eq]
      congr 3
      rw [← e2, List.takeWhile_append_dropWhile]
    · cases h
  · cases h

theorem filter_match {s : Formulas ι} {latex : ι → Str} {text k r : Str} (h : matchTag text = some (k, r)) :
    s.filter latex text = s.replacement latex k ++ s.filter latex r := by
  cases text with
  | nil => cases h
  | cons c t =>
    rw [filter]
    split
    · rename_i k' r' h'
      rw [h] at h'
      cases h'
      rfl
    · rename_i h'
      rw [h] at h'
      cases h'

theorem filter_skip {s : Formulas ι} {latex : ι → Str} {c : Char} {t : Str} (h : matchTag (c :: t) = none) :
    s.filter latex (c :: t) = c :: s.filter latex t := by
  rw [filter]
  split
  · rename_i k' r' h'
    rw [h] at h'
    cases h'
  · rfl

/-- C141: the first tag of a text is replaced and the rest is filtered in turn. The text `a` before it is kept; the hypothesis says that no tag
begins in it. -/
theorem C141_filter_first (s : Formulas ι) (latex : ι → Str) (a k b : Str) (hk : TagKey k)
    (ha : ∀ a₁ a₂ k' b', a = a₁ ++ a₂ → a₂ ≠ [] → TagKey k' → a₂ ++ tag k ++ b ≠ tag k' ++ b') :
    s.filter latex (a ++ tag k ++ b) = a ++ (match s.getitem k (some false) with
      | .ok (some i) => "$$\n".toList ++ latex i ++ "\n$$".toList
      | _ => "$$!=ERROR[".toList ++ k ++ "]=$$".toList) ++ s.filter latex b := by
  induction a with
  | nil =>
    rw [List.nil_append, filter_match (matchTag_tag hk b), List.nil_append]
    congr 1
    unfold replacement getitem field getfullitem
    cases dictGet s.fdict k <;> rfl
  | cons c a ih =>
    have hnone : matchTag (c :: (a ++ tag k ++ b)) = none := by
      cases h : matchTag (c :: (a ++ tag k ++ b)) with
      | none => rfl
      | some p =>
        obtain ⟨h1, h2⟩ := matchTag_some h
        exact absurd h2 (ha [] (c :: a) p.1 p.2 rfl (by simp) h1)
    rw [List.cons_append, List.cons_append, filter_skip hnone, ih ?_]
    · rfl
    · intro a₁ a₂ k' b' e
      exact ha (c :: a₁) a₂ k' b' (by rw [e]; rfl)

/-- C141: a text without tags is not changed. -/
theorem C141_filter_plain (s : Formulas ι) (latex : ι → Str) (text : Str) (h : ∀ a k b, TagKey k → text ≠ a ++ tag k ++ b) :
    s.filter latex text = text := by
  induction text with
  | nil => rw [filter]
  | cons c t ih =>
    have hnone : matchTag (c :: t) = none := by
      cases hm : matchTag (c :: t) with
      | none => rfl
      | some p =>
        obtain ⟨h1, h2⟩ := matchTag_some hm
        exact absurd h2 (h [] p.1 p.2 h1)
    rw [filter_skip hnone, ih]
    intro a k b hk e
    exact h (c :: a) k b hk (by rw [e]; rfl)

/-- C141: in a text made of pieces without dollar signs and tags between them, just the tags are replaced, each by the LaTeX form of its
formula or by an error that names the key; nothing raises. -/
theorem C141_filter (s : Formulas ι) (latex : ι → Str) (pieces : List (Str × Str)) (last : Str)
    (h : ∀ p ∈ pieces, '$' ∉ p.1 ∧ TagKey p.2) (hl : '$' ∉ last) :
    s.filter latex ((pieces.flatMap fun p => p.1 ++ tag p.2) ++ last) =
      (pieces.flatMap fun p => p.1 ++ match s.getitem p.2 (some false) with
        | .ok (some i) => "$$\n".toList ++ latex i ++ "\n$$".toList
        | _ => "$$!=ERROR[".toList ++ p.2 ++ "]=$$".toList) ++ last := by
  induction pieces with
  | nil =>
    refine C141_filter_plain s latex last ?_
    intro a k b _ e
    refine hl ?_
    change last = _ at e
    rw [e, List.append_assoc, tag_eq]
    simp
  | cons p l ih =>
    obtain ⟨h1, h2⟩ := h p List.mem_cons_self
    rw [List.flatMap_cons, List.flatMap_cons, List.append_assoc, C141_filter_first s latex p.1 p.2 _ h2 ?_,
      ih fun q hq => h q (List.mem_cons_of_mem _ hq)]
    · simp only [List.append_assoc]
    · intro a₁ a₂ k' b' e hne _ e2
      obtain ⟨c, a₂, rfl⟩ := List.exists_cons_of_ne_nil hne
      rw [tag_eq] at e2
      have : c = '$' := (List.cons.inj e2).1
      refine h1 ?_
      rw [e, this]
      simp

/-- Two tags, one of an unknown key. -/
example : (((new : Formulas Nat).add "eq.k".toList 7).2.filter (fun _ => "x=1".toList) "a $$=eq.k=$$ b $5 $$=no=$$".toList) =
    "a $$\nx=1\n$$ b $5 $$!=ERROR[no]=$$".toList := by
  have k1 : TagKey "eq.k".toList := ⟨by decide +kernel, fun c hc => (keyChar_iff c).mp (by
    revert c; decide +kernel)⟩
  have k2 : TagKey "no".toList := ⟨by decide +kernel, fun c hc => (keyChar_iff c).mp (by
    revert c; decide +kernel)⟩
  have e : "a $$=eq.k=$$ b $5 $$=no=$$".toList = "a ".toList ++ tag "eq.k".toList ++ (" b $5 ".toList ++ tag "no".toList ++ []) := by
    decide +kernel
  rw [e, C141_filter_first _ _ _ _ _ k1, C141_filter_first _ _ _ _ _ k2, filter]
  · decide +kernel
  · intro a₁ a₂ k' b' h hne _ e2
    rw [tag_eq k' b'] at e2
    have h3 : matchTag (a₂ ++ tag "no".toList ++ []) = none := by
      have : a₂ ∈ " b $5 ".toList.tails := by
        rw [List.mem_tails]; exact ⟨a₁, h.symm⟩
      have all : ∀ x ∈ " b $5 ".toList.tails, x ≠ [] → matchTag (x ++ tag "no".toList ++ []) = none := by decide +kernel
      exact all a₂ this hne
    rename_i hk'
    rw [e2, ← tag_eq, matchTag_tag hk'] at h3
    cases h3
  · intro a₁ a₂ k' b' h hne hk' e2
    have h3 : matchTag (a₂ ++ tag "eq.k".toList ++ (" b $5 ".toList ++ tag "no".toList ++ [])) = none := by
      have : a₂ ∈ "a ".toList.tails := by
        rw [List.mem_tails]; exact ⟨a₁, h.symm⟩
      have all : ∀ x ∈ "a ".toList.tails, x ≠ [] →
          matchTag (x ++ tag "eq.k".toList ++ (" b $5 ".toList ++ tag "no".toList ++ [])) = none := by decide +kernel
      exact all a₂ this hne
    rw [e2, matchTag_tag hk'] at h3
    cases h3

end Filter

/-- An item in a namespace, an alias for it, and another container taken over. -/
example :
    let s := ((new : Formulas Nat).add "k".toList 1 (ns := some "n".toList)).2
    let s := (s.addAlias "j".toList "k".toList (some "n".toList)).2
    let s := s.addfrom ((new : Formulas Nat).addvar "x".toList 2).2 (some "m".toList)
    s.keys = ["n.k".toList, "n.j".toList, "m.x".toList] ∧ s.keys (some true) = ["m.x".toList] ∧
      s.keys none (some "n".toList) = ["n.k".toList, "n.j".toList] ∧ s.get "n.j".toList = some 1 ∧ s.isalias "n.j".toList = some true := by
  decide +kernel

end Formulas

namespace Tags

/-- Blanks as `strip` takes them. -/
def ws (c : Char) : Bool := c = ' ' || c = '\t' || c = '\n' || c = '\r'

theorem strip_eq (s : Str) : CarbonPair.strip s = ((s.dropWhile ws).reverse.dropWhile ws).reverse := rfl

theorem toLower_ne {c d : Char} (h : ∀ x : Fin 26, d.toNat ≠ 97 + x) (hd : ¬ (65 ≤ d.toNat ∧ d.toNat ≤ 90)) : c.toLower = d ↔ c = d := by
  unfold Char.toLower
  split
  · rename_i hc
    have h1 : 65 ≤ c.toNat := hc.1
    have h2 : c.toNat ≤ 90 := hc.2
    constructor
    · intro e
      have e1 := congrArg Char.toNat e
      have e2 : c.toNat + 32 = d.toNat := by
        rw [← e1]
        show _ = ((c.val + ('a'.val - 'A'.val))).toNat
        rw [UInt32.toNat_add, show ('a'.val - 'A'.val).toNat = 32 by decide]
        show c.toNat + 32 = (c.toNat + 32) % _
        omega
      exact absurd (show d.toNat = 97 + ((⟨c.toNat - 65, by omega⟩ : Fin 26) : Nat) by simp; omega) (h _)
    · rintro rfl
      exact absurd ⟨h1, h2⟩ hd
  · exact Iff.rfl

theorem ws_lower (c : Char) : ws c.toLower = ws c := by
  unfold ws
  have : ∀ d ∈ [' ', '\t', '\n', '\r'], decide (c.toLower = d) = decide (c = d) := by
    intro d hd
    rw [decide_eq_decide]
    simp only [List.mem_cons, List.not_mem_nil, or_false] at hd
    rcases hd with rfl | rfl | rfl | rfl <;> exact toLower_ne (by decide) (by decide)
  rw [this _ (by simp), this _ (by simp), this _ (by simp), this _ (by simp)]

theorem strip_lower (s : Str) : CarbonPair.strip (s.map Char.toLower) = (CarbonPair.strip s).map Char.toLower := by
  have hd : ∀ s : Str, (s.map Char.toLower).dropWhile ws = (s.dropWhile ws).map Char.toLower := by
    intro s
    rw [List.dropWhile_map, show ws ∘ Char.toLower = ws from funext ws_lower]
  rw [strip_eq, strip_eq, hd, ← List.map_reverse, hd, ← List.map_reverse]

theorem dropWhile_idem (s : Str) : (s.dropWhile ws).dropWhile ws = s.dropWhile ws := by
  induction s with
  | nil => rfl
  | cons c s ih =>
    by_cases h : ws c = true
    · rw [List.dropWhile_cons_of_pos h, ih]
    · rw [List.dropWhile_cons_of_neg h, List.dropWhile_cons_of_neg h]

theorem strip_outer {w w' : Str} (hw : ∀ c ∈ w, ws c = true) (hw' : ∀ c ∈ w', ws c = true) (t : Str) :
    CarbonPair.strip (w ++ t ++ w') = CarbonPair.strip t := by
  have front : ∀ x : Str, (w ++ x).dropWhile ws = x.dropWhile ws := fun x => List.dropWhile_append_of_pos hw
  have back : ∀ x : Str, ((x ++ w').dropWhile ws).reverse.dropWhile ws = (x.dropWhile ws).reverse.dropWhile ws := by
    intro x
    induction x with
    | nil =>
      have : w'.dropWhile ws = [] := by
        have := List.dropWhile_append_of_pos (l₂ := []) hw'
        rw [List.append_nil] at this
        rw [this]
        rfl
      rw [List.nil_append, this]
      rfl
    | cons c x ih =>
      by_cases h : ws c = true
      · rw [List.cons_append, List.dropWhile_cons_of_pos h, List.dropWhile_cons_of_pos h, ih]
      · rw [List.cons_append, List.dropWhile_cons_of_neg h, List.dropWhile_cons_of_neg h]
        show (((c :: x) ++ w').reverse).dropWhile ws = _
        rw [List.reverse_append, List.dropWhile_append_of_pos (fun d hd => hw' d (List.mem_reverse.mp hd))]
  rw [strip_eq, strip_eq, List.append_assoc, front, back]

theorem strip_idem (s : Str) : CarbonPair.strip (CarbonPair.strip s) = CarbonPair.strip s := by
  have keep : ∀ t : Str, t.dropWhile ws = t → ((t.reverse.dropWhile ws).reverse).dropWhile ws = (t.reverse.dropWhile ws).reverse := by
    intro t ht
    cases t with
    | nil => rfl
    | cons c t =>
      have hc : ¬ ws c = true := by
        intro h
        rw [List.dropWhile_cons_of_pos h] at ht
        have := (List.dropWhile_sublist (l := t) ws).length_le
        rw [ht] at this
        simp at this
      rw [List.reverse_cons]
      by_cases hall : ∀ d ∈ t.reverse, ws d = true
      · rw [List.dropWhile_append_of_pos hall, List.dropWhile_cons_of_neg hc]
        show [c].dropWhile ws = [c]
        rw [List.dropWhile_cons_of_neg hc]
      · have : (t.reverse ++ [c]).dropWhile ws = t.reverse.dropWhile ws ++ [c] := by
          generalize t.reverse = u at hall
          induction u with
          | nil => exact absurd (by simp) hall
          | cons d u ih =>
            by_cases hd : ws d = true
            · rw [List.cons_append, List.dropWhile_cons_of_pos hd, List.dropWhile_cons_of_pos hd, ih]
              intro h
              refine hall fun x hx => ?_
              rcases List.mem_cons.mp hx with rfl | hx
              · exact hd
              · exact h x hx
            · rw [List.cons_append, List.dropWhile_cons_of_neg hd, List.dropWhile_cons_of_neg hd]
              rfl
        rw [this, List.reverse_append]
        show (c :: _).dropWhile ws = _
        rw [List.dropWhile_cons_of_neg hc]
        rfl
  rw [strip_eq s, strip_eq, keep _ (dropWhile_idem s), List.reverse_reverse, dropWhile_idem]

theorem normTag_idem (t : Str) : normTag (normTag t) = normTag t := by
  unfold normTag
  rw [strip_lower, strip_idem, List.map_map]
  congr 1
  funext c
  exact toLower_idem c

/-- C142: a tag is found if it is one of the parts of the string between commas, whatever the case of the letters and blanks around it; no
string has no tags. -/
theorem C142_has (s t : Str) :
    ((fromstr (some s)).has t = true ↔ ∃ p ∈ splitChar ',' s, normTag p = normTag t) ∧ (fromstr none).has t = false ∧
    ∀ (u : Tags) (w w' t' : Str), (∀ c ∈ w ++ w', c = ' ' ∨ c = '\t' ∨ c = '\n' ∨ c = '\r') → t'.map Char.toLower = t.map Char.toLower →
      u.has (w ++ t' ++ w') = u.has t := by
  refine ⟨?_, rfl, ?_⟩
  · unfold fromstr has
    simp only [decide_eq_true_eq, List.mem_dedup, List.mem_map]
  · intro u w w' t' hw ht
    have hb : ∀ c ∈ w ++ w', ws c = true := by
      intro c hc
      unfold ws
      simpa [or_assoc] using hw c hc
    have : normTag (w ++ t' ++ w') = normTag t := by
      unfold normTag
      rw [strip_outer (fun c hc => hb c (List.mem_append_left _ hc)) (fun c hc => hb c (List.mem_append_right _ hc)), ← strip_lower,
        ht, strip_lower]
    unfold has
    rw [this]

/-- C142: adding tags gives the tags of both, and each tag is kept once. -/
theorem C142_add (a b : Tags) (s : Option Str) (t : Str) : (a.add b).has t = (a.has t || b.has t) ∧ (a.addstr s).has t = (a.has t || (fromstr s).has t) ∧
    (fromstr s).tagset.Nodup ∧ (a.tagset.Nodup → b.tagset.Nodup → (a.add b).tagset.Nodup) := by
  have key : ∀ b : Tags, (a.add b).has t = (a.has t || b.has t) := by
    intro b
    unfold add has
    simp only [List.mem_union_iff, Bool.decide_or]
  refine ⟨key b, key _, ?_, fun _ hb => List.Nodup.union _ hb⟩
  unfold fromstr
  split
  · exact List.nodup_nil
  · exact List.nodup_dedup _

theorem splitChar_parts (d : Char) : ∀ s : Str, ∀ p ∈ splitChar d s, d ∉ p
  | [], p, hp => by
    rw [splitChar, List.mem_singleton] at hp
    subst hp
    simp
  | a :: s, p, hp => by
    have ih := splitChar_parts d s
    unfold splitChar at hp
    split at hp
    · rcases List.mem_cons.mp hp with rfl | hp
      · simp
      · exact ih p hp
    · rename_i had
      split at hp
      · rw [List.mem_singleton] at hp
        subst hp
        simpa using Ne.symm had
      · rename_i w l e
        rcases List.mem_cons.mp hp with rfl | hp
        · rw [List.mem_cons, not_or]
          exact ⟨Ne.symm had, ih w (by rw [e]; exact List.mem_cons_self)⟩
        · exact ih p (by rw [e]; exact List.mem_cons_of_mem _ hp)

theorem splitChar_join {d : Char} : ∀ {l : List Str}, l ≠ [] → (∀ p ∈ l, d ∉ p) → splitChar d ([d].intercalate l) = l
  | [], h, _ => absurd rfl h
  | [p], _, h => by
    rw [show [d].intercalate [p] = p by simp [List.intercalate], splitChar_self (free (h p List.mem_cons_self))]
  | p :: q :: l, _, h => by
    rw [List.intercalate_cons_cons, show p ++ [d] ++ [d].intercalate (q :: l) = p ++ d :: [d].intercalate (q :: l) by simp,
      splitChar_append (free (h p List.mem_cons_self)), splitChar_join (by simp) fun x hx => h x (List.mem_cons_of_mem _ hx)]

/-- C142, as far as it holds for the text of the tags: the tags that are made from a string are read back from their text, in whatever order
the set is written. -/
theorem C142_text_partial (s : Str) (t : Tags) (h : t.tagset.Perm (fromstr (some s)).tagset) (x : Str) :
    (fromstr (some t.str)).has x = (fromstr (some s)).has x := by
  have mem : ∀ p ∈ t.tagset, ',' ∉ p ∧ normTag p = p := by
    intro p hp
    have hp' := h.mem_iff.mp hp
    unfold fromstr at hp'
    rw [List.mem_dedup, List.mem_map] at hp'
    obtain ⟨q, hq, rfl⟩ := hp'
    refine ⟨?_, normTag_idem q⟩
    intro hc
    unfold normTag at hc
    obtain ⟨c, hc, e⟩ := List.mem_map.mp hc
    rw [toLower_ne (by decide) (by decide)] at e
    subst e
    refine splitChar_parts ',' s q hq ?_
    rw [strip_eq, List.mem_reverse] at hc
    exact (List.dropWhile_sublist _).subset (List.mem_reverse.mp ((List.dropWhile_sublist _).subset hc))
  have hne : t.tagset ≠ [] := by
    intro e
    rw [e] at h
    have := h.length_eq
    unfold fromstr at this
    rw [List.length_nil, eq_comm, List.length_eq_zero_iff, List.dedup_eq_nil, List.map_eq_nil_iff] at this
    cases s with
    | nil => simp [splitChar] at this
    | cons c s =>
      unfold splitChar at this
      split at this
      · cases this
      · split at this <;> cases this
  have e : (fromstr (some t.str)).has x = t.has x := by
    rw [Bool.eq_iff_iff, (C142_has t.str x).1]
    unfold str
    rw [splitChar_join hne fun p hp => (mem p hp).1]
    unfold has
    rw [decide_eq_true_eq]
    constructor
    · rintro ⟨p, hp, e⟩
      rw [← e, (mem p hp).2]
      exact hp
    · intro hx
      exact ⟨normTag x, hx, normTag_idem x⟩
  rw [e]
  unfold has
  rw [Bool.eq_iff_iff, decide_eq_true_eq, decide_eq_true_eq, h.mem_iff]

/-- C142 fails for no tags: their text is empty, and from the empty text, as from a trailing comma, one tag results, the empty one. -/
theorem C142_text_violated : (fromstr none).has [] = false ∧ (fromstr none).str = [] ∧ (fromstr (some [])).has [] = true ∧
    ∀ s : Str, (fromstr (some (s ++ [',']))).has [] = true := by
  refine ⟨rfl, rfl, by decide +kernel, fun s => ?_⟩
  rw [(C142_has _ _).1]
  refine ⟨[], ?_, rfl⟩
  have : splitChar ',' (s ++ [',']) = splitChar ',' s ++ [[]] := by
    induction s with
    | nil => simp [splitChar]
    | cons c s ih =>
      rw [List.cons_append]
      unfold splitChar
      split
      · rw [ih, List.cons_append]
      · rw [ih]
        cases hsp : splitChar ',' s with
        | nil =>
          cases s with
          | nil => simp [splitChar] at hsp
          | cons d s =>
            unfold splitChar at hsp
            split at hsp
            · cases hsp
            · split at hsp <;> cases hsp
        | cons w l => rfl
  rw [this]
  simp

/-- Tags of a string. -/
example : (fromstr (some " Curve,swap ,SWAP".toList)).has " swap".toList = true ∧ (fromstr (some " Curve,swap ,SWAP".toList)).tagset.length = 2 ∧
    (fromstr (some "swap".toList)).has "curve".toList = false := by decide +kernel

end Tags

end Carbon
