import Verif.Tools.CpcContainer
import Verif.Prop.CpcTrade

/-!
# The curve container: selection (C43), ids (C72), prices (C73, C74), concentration (C75), pair filters (C76), token table (C77)
-/

set_option linter.unusedSectionVars false

namespace Carbon

section Dict
variable {κ ν : Type} [DecidableEq κ]

theorem dictGet_set (d : List (κ × ν)) (k k' : κ) (v : ν) :
    dictGet (dictSet d k v) k' = if k = k' then some v else dictGet d k' := by
  induction d with
  | nil => simp [dictSet, dictGet]
  | cons a d ih =>
    obtain ⟨a, b⟩ := a
    unfold dictSet
    by_cases h : a = k
    · rw [if_pos h]
      unfold dictGet
      subst h
      by_cases h2 : a = k' <;> simp [h2]
    · rw [if_neg h]
      unfold dictGet
      by_cases h2 : a = k'
      · subst h2; simp [Ne.symm h]
      · rw [if_neg h2, if_neg h2, ih]

end Dict

namespace CC

open CarbonPair (pyDiv)
open UICurve (pyDiv_ok)

section
variable {K : Type} [Field K] [LinearOrder K] [IsStrictOrderedRing K] [PySqrt K]

/-- The containers that can arise: built from curves and extended by curves. -/
inductive Built : CC K → Prop where
  | make (ws : List (Wrapped K)) : Built (make ws)
  | add {cc : CC K} (w : Wrapped K) : Built cc → Built (add cc w)

/-- The dictionaries agree with the list of curves. -/
structure Good (cc : CC K) : Prop where
  cids : ∀ c ∈ cc.curves, c.cid ≠ none
  get : ∀ k, dictGet cc.byCid k = (cc.curves.filter fun c => decide (c.cid = k)).getLast?
  prim : ∀ s, (dictGet cc.byPrimary s).getD [] = (cc.curves.filter fun c => decide (primaryOf c = s))
  primSome : ∀ s l, dictGet cc.byPrimary s = some l → l ≠ []

theorem withCid_cid (i : Nat) (c : CPC K) : (withCid i c).cid ≠ none := by
  unfold withCid; split
  · simp
  · assumption

theorem withCid_eq {i : Nat} {c : CPC K} (h : c.cid ≠ none) : withCid i c = c := if_neg h

theorem good_snoc {cc : CC K} (h : Good cc) {c : CPC K} (hc : c.cid ≠ none) :
    Good ⟨cc.curves ++ [c], dictSet cc.byCid c.cid c, addPrimary cc.byPrimary c⟩ := by
  refine ⟨?_, ?_, ?_, ?_⟩
  · intro d hd
    rcases List.mem_append.mp hd with hd | hd
    · exact h.cids d hd
    · rw [List.mem_singleton.mp hd]; exact hc
  · intro k
    show dictGet (dictSet _ _ _) k = ((cc.curves ++ [c]).filter _).getLast?
    rw [dictGet_set, List.filter_append]
    by_cases hk : c.cid = k
    · rw [if_pos hk, List.filter_cons_of_pos (by simpa using hk)]; simp
    · rw [if_neg hk, List.filter_cons_of_neg (by simpa using hk), h.get]; simp
  · intro s
    show (dictGet (dictSet _ _ _) s).getD [] = (cc.curves ++ [c]).filter _
    rw [dictGet_set, List.filter_append]
    by_cases hk : primaryOf c = s
    · rw [if_pos hk, List.filter_cons_of_pos (by simpa using hk), ← h.prim, hk]; rfl
    · rw [if_neg hk, List.filter_cons_of_neg (by simpa using hk), h.prim]; simp
  · intro s l hl
    change dictGet (dictSet _ _ _) s = some l at hl
    rw [dictGet_set] at hl
    by_cases hk : primaryOf c = s
    · rw [if_pos hk] at hl
      rw [← Option.some.inj hl]; simp
    · rw [if_neg hk] at hl; exact h.primSome s l hl

theorem good_fold (cs : List (CPC K)) (hcs : ∀ c ∈ cs, c.cid ≠ none) {cc : CC K} (h : Good cc) :
    Good ⟨cc.curves ++ cs, cs.foldl (fun d c => dictSet d c.cid c) cc.byCid, cs.foldl addPrimary cc.byPrimary⟩ := by
  induction cs generalizing cc with
  | nil => simpa using h
  | cons c cs ih =>
    have h1 := good_snoc h (hcs c (by simp))
    have h2 := ih (fun d hd => hcs d (by simp [hd])) h1
    simpa using h2

theorem good_make (ws : List (Wrapped K)) : Good (make ws) := by
  have h0 : Good (⟨[], [], []⟩ : CC K) :=
    ⟨by simp, by intro k; rfl, by intro s; rfl, by intro s l h; simp [dictGet] at h⟩
  have := good_fold ((Wrapped.unwrap ws).mapIdx fun i c => withCid i c) (by
    intro c hc
    rw [List.mem_mapIdx] at hc
    obtain ⟨i, hi, rfl⟩ := hc
    exact withCid_cid _ _) h0
  exact this

theorem good_of_built {cc : CC K} (h : Built cc) : Good cc := by
  induction h with
  | make ws => exact good_make ws
  | add w _ ih => exact good_snoc ih (withCid_cid _ _)

/-- A container of curves that have ids already holds these curves. -/
theorem ofCurves_curves {cs : List (CPC K)} (h : ∀ c ∈ cs, c.cid ≠ none) : (ofCurves cs).curves = cs := by
  show (Wrapped.unwrap (cs.map Wrapped.plain)).mapIdx _ = cs
  have : Wrapped.unwrap (cs.map Wrapped.plain) = cs := by
    unfold Wrapped.unwrap
    rw [List.map_map]
    conv_rhs => rw [← List.map_id cs]
    exact List.map_congr_left fun c _ => rfl
  rw [this]
  apply List.ext_getElem (by simp)
  intro i h1 h2
  rw [List.getElem_mapIdx]
  exact withCid_eq (h _ (List.getElem_mem h2))

/-! ## C43: selection -/

/-- **C43** Looking up an id finds a curve of the container with this id exactly if there is one. -/
theorem C43_lookup (cc : CC K) (h : Built cc) (i : Cid) :
    (∀ c, cc.bycid i = some c → c ∈ cc.curves ∧ c.cid = some i) ∧
      (cc.bycid i = none ↔ ∀ c ∈ cc.curves, c.cid ≠ some i) ∧
      (∀ c ∈ cc.curves, c.cid = some i → cc.cids.Nodup → cc.bycid i = some c) := by
  have g := (good_of_built h).get (some i)
  have key : ∀ c, cc.bycid i = some c → c ∈ cc.curves ∧ c.cid = some i := by
    intro c hc
    unfold bycid at hc
    rw [g] at hc
    have := List.mem_of_getLast? hc
    simpa using this
  refine ⟨key, ?_, ?_⟩
  · unfold bycid
    rw [g, List.getLast?_eq_none_iff, List.filter_eq_nil_iff]
    simp
  · intro c hc hi hn
    cases hb : cc.bycid i with
    | none =>
      unfold bycid at hb
      rw [g, List.getLast?_eq_none_iff, List.filter_eq_nil_iff] at hb
      exact absurd hi (by simpa using hb c hc)
    | some d =>
      obtain ⟨h1, h2⟩ := key d hb
      have := List.inj_on_of_nodup_map hn hc h1 (by rw [hi, h2])
      rw [this]

/-- **C43** Without a list of ids, all curves but the excluded ones are selected, in order. -/
theorem C43_exclude (cc : CC K) (h : Built cc) (ex : List Cid) :
    ∃ r, cc.bycids none (some ex) = .ok r ∧
      r.curves = cc.curves.filter (fun c => decide (∀ i ∈ ex, c.cid ≠ some i)) := by
  refine ⟨_, rfl, ?_⟩
  rw [ofCurves_curves]
  · apply List.filter_congr
    intro c hc
    cases hi : c.cid with
    | none => simp
    | some i =>
      show decide (i ∉ ex) = _
      rw [decide_eq_decide]
      constructor
      · intro h1 j hj e
        rw [← Option.some.inj e] at hj; exact h1 hj
      · intro h1 hi
        exact h1 i hi rfl
  · intro c hc
    exact (good_of_built h).cids c (List.mem_of_mem_filter hc)

theorem lookupAll_ok {cc : CC K} {is : List Cid} {cs : List (CPC K)} (h : cc.lookupAll is = .ok cs) :
    cs.map (fun c => some c) = is.map cc.bycid := by
  induction is generalizing cs with
  | nil => cases h; rfl
  | cons i is ih =>
    unfold lookupAll at h
    cases hb : cc.bycid i with
    | none => rw [hb] at h; cases h
    | some c =>
      rw [hb] at h
      dsimp only at h
      rw [Py.bind_eq_ok] at h
      obtain ⟨ds, h1, h2⟩ := h
      have := Except.ok.inj h2
      subst this
      rw [List.map_cons, List.map_cons, ih h1, hb]

theorem lookupAll_key {cc : CC K} (is : List Cid) :
    (∃ cs, cc.lookupAll is = .ok cs) ∨ (cc.lookupAll is = .error .key ∧ ∃ i ∈ is, cc.bycid i = none) := by
  induction is with
  | nil => exact Or.inl ⟨[], rfl⟩
  | cons i is ih =>
    unfold lookupAll
    cases hb : cc.bycid i with
    | none => exact Or.inr ⟨rfl, i, by simp, hb⟩
    | some c =>
      rcases ih with ⟨cs, h⟩ | ⟨h, j, hj, hn⟩
      · left; exact ⟨c :: cs, by dsimp only; rw [h]; rfl⟩
      · right; exact ⟨by dsimp only; rw [h]; rfl, j, by simp [hj], hn⟩

/-- **C43** (the part that holds) With a list of ids, the ids selected are those of the list without the excluded ones, in the order
of the list. If ids are unique, these are exactly the curves of the container with these ids. -/
theorem C43_include_partial (cc : CC K) (h : Built cc) (inc ex : List Cid) :
    (∀ r, cc.bycids (some inc) (some ex) = .ok r →
      r.cids = (inc.filter fun i => decide (i ∉ ex)).map some ∧ (∀ c ∈ r.curves, c ∈ cc.curves) ∧
      (cc.cids.Nodup → ∀ c, c ∈ r.curves ↔ c ∈ cc.curves ∧ ∃ i ∈ inc, i ∉ ex ∧ c.cid = some i)) ∧
    ((∃ r, cc.bycids (some inc) (some ex) = .ok r) ↔ ∀ i ∈ inc, i ∉ ex → ∃ c ∈ cc.curves, c.cid = some i) ∧
    ((∃ i ∈ inc, i ∉ ex ∧ ∀ c ∈ cc.curves, c.cid ≠ some i) → cc.bycids (some inc) (some ex) = .error .key) := by
  set L := inc.filter fun i => decide (i ∉ ex) with hL
  have hmem : ∀ i, i ∈ L ↔ i ∈ inc ∧ i ∉ ex := by intro i; rw [hL]; simp
  have hred : cc.bycids (some inc) (some ex) = (cc.lookupAll L >>= fun cs => .ok (ofCurves cs)) := rfl
  have hin : ∀ cs, cc.lookupAll L = .ok cs → (∀ c ∈ cs, c ∈ cc.curves ∧ ∃ i ∈ L, c.cid = some i) ∧
      cs.map CPC.cid = L.map some ∧ ∀ i ∈ L, ∃ c ∈ cs, cc.bycid i = some c := by
    intro cs hcs
    have hm := lookupAll_ok hcs
    have hb : ∀ c ∈ cs, ∃ i ∈ L, cc.bycid i = some c := by
      intro c hc
      have : some c ∈ L.map cc.bycid := by rw [← hm]; exact List.mem_map.mpr ⟨c, hc, rfl⟩
      exact List.mem_map.mp this
    refine ⟨?_, ?_, ?_⟩
    · intro c hc
      obtain ⟨i, hi, hbi⟩ := hb c hc
      obtain ⟨h1, h2⟩ := (C43_lookup cc h i).1 c hbi
      exact ⟨h1, i, hi, h2⟩
    · clear hb hred
      clear_value L
      clear hL hmem
      induction L generalizing cs with
      | nil => cases hcs; rfl
      | cons i is ih =>
        cases cs with
        | nil => simp at hm
        | cons c cs =>
          simp only [List.map_cons, List.cons.injEq] at hm
          have hi := ((C43_lookup cc h i).1 c hm.1.symm).2
          have hl : cc.lookupAll is = .ok cs := by
            unfold lookupAll at hcs
            rw [← hm.1] at hcs
            dsimp only at hcs
            rw [Py.bind_eq_ok] at hcs
            obtain ⟨ds, h1, h2⟩ := hcs
            have := Except.ok.inj h2
            rw [List.cons.injEq] at this
            rw [h1, this.2]
          rw [List.map_cons, List.map_cons, hi, ih cs hl hm.2]
    · intro i hi
      have : cc.bycid i ∈ cs.map (fun c => some c) := by rw [hm]; exact List.mem_map.mpr ⟨i, hi, rfl⟩
      obtain ⟨c, hc, he⟩ := List.mem_map.mp this
      exact ⟨c, hc, he.symm⟩
  refine ⟨?_, ?_, ?_⟩
  · intro r hr
    rw [hred, Py.bind_eq_ok] at hr
    obtain ⟨cs, hcs, hr⟩ := hr
    have := Except.ok.inj hr
    subst this
    obtain ⟨h1, h2, h3⟩ := hin cs hcs
    have hcur : (ofCurves cs).curves = cs := ofCurves_curves fun c hc => (good_of_built h).cids c (h1 c hc).1
    refine ⟨by unfold CC.cids; rw [hcur, h2], by rw [hcur]; exact fun c hc => (h1 c hc).1, fun hn c => ?_⟩
    rw [hcur]
    constructor
    · intro hc
      obtain ⟨a, i, hi, hci⟩ := h1 c hc
      exact ⟨a, i, ((hmem i).mp hi).1, ((hmem i).mp hi).2, hci⟩
    · rintro ⟨hc, i, hi, hie, hci⟩
      obtain ⟨d, hd, hbd⟩ := h3 i ((hmem i).mpr ⟨hi, hie⟩)
      have := (C43_lookup cc h i).2.2 c hc hci hn
      rw [hbd] at this
      rw [← Option.some.inj this]; exact hd
  · rw [hred]
    constructor
    · rintro ⟨r, hr⟩ i hi hie
      rw [Py.bind_eq_ok] at hr
      obtain ⟨cs, hcs, -⟩ := hr
      obtain ⟨c, hc, hb⟩ := (hin cs hcs).2.2 i ((hmem i).mpr ⟨hi, hie⟩)
      exact ⟨c, (C43_lookup cc h i).1 c hb⟩
    · intro hall
      rcases lookupAll_key (cc := cc) L with ⟨cs, hcs⟩ | ⟨-, i, hi, hn⟩
      · exact ⟨_, by rw [hcs]; rfl⟩
      · obtain ⟨c, hc, hci⟩ := hall i ((hmem i).mp hi).1 ((hmem i).mp hi).2
        exact absurd hci ((C43_lookup cc h i).2.1.mp hn c hc)
  · rintro ⟨i, hi, hie, hn⟩
    rw [hred]
    rcases lookupAll_key (cc := cc) L with ⟨cs, hcs⟩ | ⟨he, -⟩
    · obtain ⟨c, hc, hb⟩ := (hin cs hcs).2.2 i ((hmem i).mpr ⟨hi, hie⟩)
      obtain ⟨h1, h2⟩ := (C43_lookup cc h i).1 c hb
      exact absurd h2 (hn c h1)
    · rw [he]; rfl

theorem reversePair_eq {b q : Str} (hb : '/' ∉ b) (hq : '/' ∉ q) : reversePair (b ++ '/' :: q) = q ++ '/' :: b := by
  unfold reversePair
  rw [splitSlash_eq_two.mpr ⟨rfl, hb, hq⟩]
  rfl

/-- **C43** Selecting by a directed pair returns exactly the curves with this pair, in order. Undirected it returns the curves with
this pair and those with the reversed pair, each once if the two tokens differ, those of the pair itself first. -/
theorem C43_bypair_partial (cc : CC K) (h : Built cc) (b q : Str) (hb : '/' ∉ b) (hq : '/' ∉ q) :
    (cc.bypair (b ++ '/' :: q) true).curves = cc.curves.filter (fun c => decide (c.pair = b ++ '/' :: q)) ∧
      (b ≠ q → (cc.bypair (b ++ '/' :: q)).curves.Perm
        (cc.curves.filter fun c => decide (c.pair = b ++ '/' :: q ∨ c.pair = q ++ '/' :: b))) := by
  have hc := (good_of_built h).cids
  constructor
  · unfold bypair
    dsimp only
    rw [if_pos rfl, ofCurves_curves fun c hc' => hc c (List.mem_of_mem_filter hc')]
  · intro hne
    unfold bypair
    dsimp only
    rw [if_neg (by simp), ofCurves_curves, reversePair_eq hb hq]
    · have hd : ∀ c : CPC K, ¬ (c.pair = b ++ '/' :: q ∧ c.pair = q ++ '/' :: b) := by
        rintro c ⟨h1, h2⟩
        have e1 := splitSlash_eq_two.mpr ⟨h1, hb, hq⟩
        have e2 := splitSlash_eq_two.mpr ⟨h2, hq, hb⟩
        rw [e1] at e2
        simp only [List.cons.injEq] at e2
        exact hne e2.1
      clear hc h
      induction cc.curves with
      | nil => simp
      | cons c cs ih =>
        by_cases h1 : c.pair = b ++ '/' :: q
        · have h2 : ¬ c.pair = q ++ '/' :: b := fun h2 => hd c ⟨h1, h2⟩
          rw [List.filter_cons_of_pos (by simpa using h1), List.filter_cons_of_neg (by simpa using h2),
            List.filter_cons_of_pos (by simp [h1])]
          exact ih.cons c
        · by_cases h2 : c.pair = q ++ '/' :: b
          · rw [List.filter_cons_of_neg (by simpa using h1), List.filter_cons_of_pos (by simpa using h2),
              List.filter_cons_of_pos (by simp [h2])]
            exact List.perm_middle.trans (ih.cons c)
          · rw [List.filter_cons_of_neg (by simpa using h1), List.filter_cons_of_neg (by simpa using h2),
              List.filter_cons_of_neg (by simp [h1, h2])]
            exact ih
    · intro c hc'
      rcases List.mem_append.mp hc' with hc' | hc' <;> exact hc c (List.mem_of_mem_filter hc')

theorem reverseAll_ok {ps : List (Str × Str)} (h : ∀ t ∈ ps, '/' ∉ t.1 ∧ '/' ∉ t.2) :
    reverseAll (ps.map fun t => t.1 ++ '/' :: t.2) = .ok (ps.map fun t => t.2 ++ '/' :: t.1) := by
  induction ps with
  | nil => rfl
  | cons t ps ih =>
    have ht := h t (by simp)
    rw [List.map_cons, reverseAll, CarbonPair.unpack_eq_ok.mpr ⟨rfl, ht⟩, Py.ok_bind, ih (fun s hs => h s (by simp [hs])),
      Py.ok_bind, List.map_cons]

/-- **C43** Selecting by several pairs returns exactly the curves with one of the pairs (or its reverse, unless directed), in order,
each once. -/
theorem C43_bypairs (cc : CC K) (h : Built cc) (ps : List (Str × Str)) (hps : ∀ t ∈ ps, '/' ∉ t.1 ∧ '/' ∉ t.2)
    (directed : Bool) :
    ∃ r, cc.bypairs (some (ps.map fun t => t.1 ++ '/' :: t.2)) directed = .ok r ∧
      r.curves = cc.curves.filter fun c =>
        decide (∃ t ∈ ps, c.pair = t.1 ++ '/' :: t.2 ∨ (directed = false ∧ c.pair = t.2 ++ '/' :: t.1)) := by
  have hc := (good_of_built h).cids
  cases directed with
  | true =>
    refine ⟨_, rfl, ?_⟩
    rw [ofCurves_curves fun c hc' => hc c (List.mem_of_mem_filter hc')]
    apply List.filter_congr
    intro c _
    simp [eq_comm]
  | false =>
    unfold bypairs
    dsimp only
    rw [if_neg (by simp), reverseAll_ok hps, Py.ok_bind]
    refine ⟨_, rfl, ?_⟩
    rw [ofCurves_curves fun c hc' => hc c (List.mem_of_mem_filter hc')]
    apply List.filter_congr
    intro c _
    rw [decide_eq_decide]
    simp only [List.mem_append, List.mem_map]
    constructor
    · rintro (⟨t, ht, e⟩ | ⟨t, ht, e⟩)
      · exact ⟨t, ht, Or.inl e.symm⟩
      · exact ⟨t, ht, Or.inr ⟨by trivial, e.symm⟩⟩
    · rintro ⟨t, ht, e | ⟨-, e⟩⟩
      · exact Or.inl ⟨t, ht, e.symm⟩
      · exact Or.inr ⟨t, ht, e.symm⟩

/-- **C43** Selecting by base or by quote tokens returns exactly the curves with one of these tokens, in order; copying returns
all. -/
theorem C43_bytokens (cc : CC K) (h : Built cc) (ts : List Str) :
    (cc.bytknxs ts).curves = cc.curves.filter (fun c => decide (c.tknb ∈ ts)) ∧
      (cc.bytknys ts).curves = cc.curves.filter (fun c => decide (c.tknq ∈ ts)) ∧
      ∃ r, cc.bypairs = .ok r ∧ r.curves = cc.curves := by
  have hc := (good_of_built h).cids
  exact ⟨ofCurves_curves fun c hc' => hc c (List.mem_of_mem_filter hc'),
    ofCurves_curves fun c hc' => hc c (List.mem_of_mem_filter hc'), _, rfl, ofCurves_curves hc⟩


/-! ## C72: ids -/

/-- **C72** A container built from curves without ids, wrapped or not, numbers them by position; adding curves without ids
continues the numbering. Every curve is then found under its id. -/
theorem C72_numbering (ws us : List (Wrapped K)) (hw : ∀ w ∈ ws ++ us, (Wrapped.unwrap1 w).cid = none) :
    ((make ws).addAll us).cids = (List.range (ws.length + us.length)).map (fun i => some (Cid.int i)) ∧
      ((make ws).addAll us).cids.Nodup := by
  have h0 : (make ws).cids = (List.range ws.length).map (fun i => some (Cid.int i)) := by
    unfold CC.cids
    show ((Wrapped.unwrap ws).mapIdx fun i c => withCid i c).map CPC.cid = _
    apply List.ext_getElem (by simp [Wrapped.unwrap])
    intro i h1 h2
    have hi : i < ws.length := by simpa using h2
    simp only [List.getElem_map, List.getElem_mapIdx, List.getElem_range, Wrapped.unwrap]
    unfold withCid
    rw [if_pos (hw _ (by simp))]
  have key : ∀ (us : List (Wrapped K)) (cc : CC K) (n : Nat), (∀ w ∈ us, (Wrapped.unwrap1 w).cid = none) →
      cc.cids = (List.range n).map (fun i => some (Cid.int i)) →
      (cc.addAll us).cids = (List.range (n + us.length)).map (fun i => some (Cid.int i)) := by
    intro us
    induction us with
    | nil => intro cc n _ h; exact h
    | cons u us ih =>
      intro cc n hu h
      have hlen : cc.curves.length = n := by
        have := congrArg List.length h
        simpa [CC.cids] using this
      have h1 : (add cc u).cids = (List.range (n + 1)).map (fun i => some (Cid.int i)) := by
        unfold CC.cids add
        dsimp only
        rw [List.map_append, List.range_succ, List.map_append]
        congr 1
        unfold withCid
        rw [if_pos (hu u (by simp))]
        simp [hlen]
      have := ih (add cc u) (n + 1) (fun w hw => hu w (by simp [hw])) h1
      rw [List.length_cons, show n + (us.length + 1) = n + 1 + us.length by omega]
      exact this
  have h1 := key us (make ws) ws.length (fun w hw' => hw w (by simp [hw'])) h0
  refine ⟨h1, ?_⟩
  rw [h1]
  refine List.Nodup.map ?_ List.nodup_range
  intro a b hab
  exact Cid.int.inj (Option.some.inj hab)

/-- The ids given explicitly. -/
def explicitIds (ws : List (Wrapped K)) : List (Option Cid) := (ws.map fun w => (Wrapped.unwrap1 w).cid).filter fun i => decide (i ≠ none)

/-- The numbers used as ids are positions. -/
structure Numbered (cs : List (CPC K)) : Prop where
  nodup : (cs.map CPC.cid).Nodup
  lt : ∀ c ∈ cs, ∀ n, c.cid = some (.int n) → n < cs.length

/-- **C72** (the part that holds) If the ids given explicitly are strings and differ, all ids of the container differ, after building
it and after any number of additions, so every curve is found under its id. -/
theorem C72_unique_partial (ws us : List (Wrapped K)) (hs : ∀ w ∈ ws ++ us, ∀ n, (Wrapped.unwrap1 w).cid ≠ some (.int n))
    (hn : (explicitIds (ws ++ us)).Nodup) :
    ((make ws).addAll us).cids.Nodup ∧
      ∀ c ∈ ((make ws).addAll us).curves, ∃ i, c.cid = some i ∧ ((make ws).addAll us).bycid i = some c := by
  -- extending a numbered list of curves
  have step : ∀ (cs : List (CPC K)) (c : CPC K), Numbered cs → (∀ n, c.cid ≠ some (.int n)) →
      (c.cid ≠ none → c.cid ∉ cs.map CPC.cid) → Numbered (cs ++ [withCid cs.length c]) := by
    intro cs c h h1 h2
    constructor
    · rw [List.map_append, List.nodup_append]
      refine ⟨h.nodup, by simp, ?_⟩
      intro a ha b hb
      simp only [List.map_cons, List.map_nil, List.mem_singleton] at hb
      subst hb
      obtain ⟨d, hd, rfl⟩ := List.mem_map.mp ha
      unfold withCid
      split
      · intro e
        exact absurd (h.lt d hd _ e) (lt_irrefl _)
      · rename_i hc
        intro e
        exact h2 hc (List.mem_map.mpr ⟨d, hd, e⟩)
    · intro d hd n e
      rw [List.length_append, List.length_singleton]
      rcases List.mem_append.mp hd with hd | hd
      · exact Nat.lt_succ_of_lt (h.lt d hd n e)
      · rw [List.mem_singleton.mp hd] at e
        unfold withCid at e
        split at e
        · have := Cid.int.inj (Option.some.inj e)
          omega
        · exact absurd e (h1 n)
  -- the ids of the list are the explicit ones and numbers
  have walk : ∀ (us ws : List (Wrapped K)) (cc : CC K), Built cc → Numbered cc.curves →
      (∀ i ∈ cc.cids, (∃ n, i = some (.int n)) ∨ i ∈ explicitIds ws) →
      (∀ w ∈ us, ∀ n, (Wrapped.unwrap1 w).cid ≠ some (.int n)) → (explicitIds (ws ++ us)).Nodup →
      Built (cc.addAll us) ∧ Numbered (cc.addAll us).curves := by
    intro us
    induction us with
    | nil => intro ws cc hb h _ _ _; exact ⟨hb, h⟩
    | cons u us ih =>
      intro ws cc hb h hi hu hnd
      have hnd' : (explicitIds ((ws ++ [u]) ++ us)).Nodup := by simpa using hnd
      refine ih (ws ++ [u]) (add cc u) (Built.add u hb) ?_ ?_ (fun w hw => hu w (by simp [hw])) hnd'
      · refine step _ _ h (hu u (by simp)) ?_
        intro hc hmem
        rcases hi _ hmem with ⟨n, hn⟩ | hin
        · exact hu u (by simp) n hn
        · have : (explicitIds ws ++ explicitIds [u] ++ explicitIds us).Nodup := by
            have e : explicitIds ((ws ++ [u]) ++ us) = explicitIds ws ++ explicitIds [u] ++ explicitIds us := by
              unfold explicitIds; rw [List.map_append, List.map_append, List.filter_append, List.filter_append]
            rw [← e]; exact hnd'
          rw [List.append_assoc] at this
          have hd := (List.nodup_append.mp this).2.2 _ hin (Wrapped.unwrap1 u).cid (by simp [explicitIds, hc])
          exact hd rfl
      · intro i hi'
        unfold CC.cids add at hi'
        dsimp only at hi'
        rw [List.map_append, List.mem_append] at hi'
        have hap : explicitIds (ws ++ [u]) = explicitIds ws ++ explicitIds [u] := by simp [explicitIds]
        rcases hi' with hi' | hi'
        · rcases hi i hi' with h1 | h1
          · exact Or.inl h1
          · right; rw [hap]; exact List.mem_append_left _ h1
        · simp only [List.map_cons, List.map_nil, List.mem_singleton] at hi'
          subst hi'
          unfold withCid
          split
          · exact Or.inl ⟨_, rfl⟩
          · rename_i hc
            right; rw [hap]
            apply List.mem_append_right
            simp [explicitIds, hc]
  -- building is adding to the empty container
  have hmk : ∀ ws : List (Wrapped K), (make ws).curves = ((⟨[], [], []⟩ : CC K).addAll ws).curves := by
    intro ws
    induction ws using List.reverseRecOn with
    | nil => rfl
    | append_singleton ws u ih =>
      have e : ((⟨[], [], []⟩ : CC K).addAll (ws ++ [u])) = add ((⟨[], [], []⟩ : CC K).addAll ws) u := by
        unfold addAll; rw [List.foldl_append]; rfl
      rw [e]
      show (Wrapped.unwrap (ws ++ [u])).mapIdx _ = ((⟨[], [], []⟩ : CC K).addAll ws).curves ++ [_]
      rw [← ih]
      show (Wrapped.unwrap (ws ++ [u])).mapIdx _ = (Wrapped.unwrap ws).mapIdx _ ++ [_]
      simp [Wrapped.unwrap, List.mapIdx_append, make]
  have hE : Built (⟨[], [], []⟩ : CC K) := by
    have := Built.make ([] : List (Wrapped K)); exact this
  have h0 : Numbered ([] : List (CPC K)) := ⟨by simp, by simp⟩
  have hn1 : (explicitIds ([] ++ ws)).Nodup := by
    have : explicitIds (ws ++ us) = explicitIds ws ++ explicitIds us := by simp [explicitIds]
    rw [this] at hn
    simpa using (List.nodup_append.mp hn).1
  obtain ⟨-, hN⟩ := walk ws [] ⟨[], [], []⟩ hE h0 (by simp [CC.cids]) (fun w hw => hs w (by simp [hw])) hn1
  rw [← hmk] at hN
  have hids : ∀ i ∈ (make ws).cids, (∃ n, i = some (.int n)) ∨ i ∈ explicitIds ws := by
    intro i hi
    unfold CC.cids at hi
    obtain ⟨c, hc, rfl⟩ := List.mem_map.mp hi
    change c ∈ (Wrapped.unwrap ws).mapIdx _ at hc
    rw [List.mem_mapIdx] at hc
    obtain ⟨j, hj, rfl⟩ := hc
    unfold withCid
    split
    · exact Or.inl ⟨_, rfl⟩
    · rename_i hc
      right
      unfold explicitIds
      rw [List.mem_filter]
      refine ⟨?_, by simpa using hc⟩
      simp only [Wrapped.unwrap, List.getElem_map, List.mem_map]
      exact ⟨_, List.getElem_mem _, rfl⟩
  obtain ⟨hB, hF⟩ := walk us ws (make ws) (Built.make ws) hN hids (fun w hw => hs w (by simp [hw])) hn
  refine ⟨hF.nodup, ?_⟩
  intro c hc
  cases hi : c.cid with
  | none => exact absurd hi ((good_of_built hB).cids c hc)
  | some i => exact ⟨i, rfl, (C43_lookup _ hB i).2.2 c hc hi hF.nodup⟩

/-! ## C73: the average price of a pair -/

/-- The price of a curve in the direction asked for. -/
def dirPrice (c : CPC K) (b q : Str) : K := if c.tknb = b ∧ c.tknq = q then c.p else 1 / c.p

/-- A curve trades a pair in one of the two directions. -/
def Trades (c : CPC K) (b q : Str) : Prop := (c.tknb = b ∧ c.tknq = q) ∨ (c.tknb = q ∧ c.tknq = b)

instance (c : CPC K) (b q : Str) : Decidable (Trades c b q) := by unfold Trades; infer_instance

theorem sep_inj {a b c d : Str} (ha : '/' ∉ a) (hb : '/' ∉ b) (h : a ++ '/' :: b = c ++ '/' :: d) : a = c ∧ b = d := by
  induction a generalizing c with
  | nil =>
    cases c with
    | nil => exact ⟨rfl, by simpa using h⟩
    | cons x c =>
      simp only [List.nil_append, List.cons_append, List.cons.injEq] at h
      exact absurd (by rw [h.2]; simp) hb
  | cons x a ih =>
    cases c with
    | nil =>
      simp only [List.nil_append, List.cons_append, List.cons.injEq] at h
      exact absurd (by rw [h.1]; simp) ha
    | cons y c =>
      simp only [List.cons_append, List.cons.injEq] at h
      obtain ⟨h1, h2⟩ := ih (fun hm => ha (by simp [hm])) h.2
      exact ⟨by rw [h.1, h1], h2⟩

theorem primaryOf_eq_iff {c : CPC K} (hs : CPC.Sound c) (b q : Str) :
    primaryOf c = (TPair.fromTokens b q).primary TPair.prettify ↔ Trades c b q := by
  obtain ⟨u, v, huv⟩ := hs.hpair
  obtain ⟨rfl, rfl, hu, hv, -⟩ := CPC.tkn_of_pair huv
  have e1 := TPair.C44_same_name TPair.prettify c.tknb c.tknq
  have e2 := TPair.C44_same_name TPair.prettify b q
  have hp : primaryOf c = (TPair.fromTokens c.tknb c.tknq).primary TPair.prettify := rfl
  constructor
  · intro h
    rw [hp] at h
    unfold Trades
    rcases e1.2.2 with ⟨h1, -⟩ | ⟨h1, -⟩ <;> rcases e2.2.2 with ⟨h2, -⟩ | ⟨h2, -⟩ <;> rw [h1, h2] at h
    · exact Or.inl (sep_inj hu hv h)
    · exact Or.inr (sep_inj hu hv h)
    · obtain ⟨x, y⟩ := sep_inj hv hu h; exact Or.inr ⟨y, x⟩
    · obtain ⟨x, y⟩ := sep_inj hv hu h; exact Or.inl ⟨y, x⟩
  · rintro (⟨h1, h2⟩ | ⟨h1, h2⟩)
    · rw [hp, h1, h2]
    · rw [hp, h1, h2]; exact e2.1.symm

theorem p_pos {c : CPC K} (hs : CPC.Sound c) : 0 < c.p := div_pos hs.y_pos hs.hx

theorem dirPrice_pos {c : CPC K} (hs : CPC.Sound c) (b q : Str) : 0 < dirPrice c b q := by
  unfold dirPrice; split
  · exact p_pos hs
  · exact one_div_pos.mpr (p_pos hs)

theorem dirPrice_swap {c : CPC K} {b q : Str} (h : b ≠ q) (ht : Trades c b q) :
    dirPrice c q b = 1 / dirPrice c b q := by
  unfold dirPrice
  rcases ht with ⟨h1, h2⟩ | ⟨h1, h2⟩
  · rw [if_neg (fun hh => h (h1.symm.trans hh.1)), if_pos ⟨h1, h2⟩]
  · rw [if_pos ⟨h1, h2⟩, if_neg (fun hh => h (hh.1.symm.trans h1)), one_div_one_div]

theorem pp_eq {c : CPC K} (hs : CPC.Sound c) {b q : Str} (h : b ≠ q) (ht : Trades c b q)
    (hp : (TPair.fromTokens b q).isprimary TPair.prettify = true) : c.pp = .ok (dirPrice c b q) := by
  have hpr : c.pp = (TPair.fromTokens c.tknb c.tknq).primaryPrice TPair.prettify c.p := rfl
  rw [hpr]
  unfold TPair.primaryPrice dirPrice
  rcases ht with ⟨h1, h2⟩ | ⟨h1, h2⟩
  · rw [h1, h2, hp, if_pos rfl, if_pos ⟨rfl, rfl⟩]
  · rw [h1, h2, TPair.C44_exactly_one _ _ _ h, hp, if_neg (by simp), if_neg (fun hh => h hh.1.symm), pyDiv_ok (p_pos hs).ne']

theorem sumPP_eq {cs : List (CPC K)} {f : CPC K → K} (h : ∀ c ∈ cs, c.pp = .ok (f c)) : sumPP cs = .ok ((cs.map f).sum) := by
  induction cs with
  | nil => rfl
  | cons c cs ih =>
    rw [sumPP, h c (by simp), Py.ok_bind, ih (fun d hd => h d (by simp [hd])), Py.ok_bind, List.map_cons, List.sum_cons]

theorem sum_le_of {α : Type} (l : List α) (f : α → K) (M : K) (h : ∀ a ∈ l, f a ≤ M) : (l.map f).sum ≤ l.length * M := by
  induction l with
  | nil => simp
  | cons a l ih =>
    rw [List.map_cons, List.sum_cons, List.length_cons]
    have h1 := h a (by simp)
    have h2 := ih fun b hb => h b (by simp [hb])
    push_cast
    linarith

theorem le_sum_of {α : Type} (l : List α) (f : α → K) (m : K) (h : ∀ a ∈ l, m ≤ f a) : l.length * m ≤ (l.map f).sum := by
  induction l with
  | nil => simp
  | cons a l ih =>
    rw [List.map_cons, List.sum_cons, List.length_cons]
    have h1 := h a (by simp)
    have h2 := ih fun b hb => h b (by simp [hb])
    push_cast
    linarith

/-- What `price` returns: in the primary direction the average of the prices of the curves on the pair, in the other direction one
over the average of the reciprocal prices. -/
theorem price_spec {cc : CC K} (hb : Built cc) (hs : ∀ c ∈ cc.curves, CPC.Sound c) {b q : Str} (h : b ≠ q)
    (hp : (TPair.fromTokens b q).isprimary TPair.prettify = true) :
    (cc.curves.filter (fun c => decide (Trades c b q)) = [] → cc.price b q = .ok none ∧ cc.price q b = .ok none) ∧
    (cc.curves.filter (fun c => decide (Trades c b q)) ≠ [] →
      ∃ m, m = ((cc.curves.filter fun c => decide (Trades c b q)).map fun c => dirPrice c b q).sum /
          ((cc.curves.filter fun c => decide (Trades c b q)).length : K) ∧ 0 < m ∧
        cc.price b q = .ok (some m) ∧ cc.price q b = .ok (some (1 / m))) := by
  set L := cc.curves.filter fun c => decide (Trades c b q) with hL
  have g := good_of_built hb
  have hl : (dictGet cc.byPrimary ((TPair.fromTokens b q).primary TPair.prettify)).getD [] = L := by
    rw [g.prim, hL]
    apply List.filter_congr
    intro c hc
    rw [decide_eq_decide]
    exact primaryOf_eq_iff (hs c hc) b q
  have hmem : ∀ c ∈ L, CPC.Sound c ∧ Trades c b q := by
    intro c hc
    rw [hL, List.mem_filter] at hc
    exact ⟨hs c hc.1, by simpa using hc.2⟩
  have hsw : (TPair.fromTokens q b).primary TPair.prettify = (TPair.fromTokens b q).primary TPair.prettify :=
    (TPair.C44_same_name TPair.prettify b q).1.symm
  have hns : (TPair.fromTokens q b).isprimary TPair.prettify = false := by
    rw [TPair.C44_exactly_one _ _ _ h, hp]; rfl
  constructor
  · intro he
    have hnone : dictGet cc.byPrimary ((TPair.fromTokens b q).primary TPair.prettify) = none := by
      cases hd : dictGet cc.byPrimary ((TPair.fromTokens b q).primary TPair.prettify) with
      | none => rfl
      | some l =>
        rw [hd] at hl
        exact absurd (by rw [he] at hl; exact hl) (g.primSome _ _ hd)
    unfold price
    dsimp only
    rw [hsw, hnone]
    exact ⟨rfl, rfl⟩
  · intro hne
    have hsome : dictGet cc.byPrimary ((TPair.fromTokens b q).primary TPair.prettify) = some L := by
      cases hd : dictGet cc.byPrimary ((TPair.fromTokens b q).primary TPair.prettify) with
      | none => rw [hd] at hl; exact absurd hl.symm hne
      | some l => rw [hd] at hl; rw [← hl]; rfl
    have hlen : (0 : K) < (L.length : K) := by
      have : 0 < L.length := List.length_pos_iff.mpr hne
      exact_mod_cast this
    have hsum : 0 < (L.map fun c => dirPrice c b q).sum := by
      apply List.sum_pos
      · intro x hx
        obtain ⟨c, hc, rfl⟩ := List.mem_map.mp hx
        exact dirPrice_pos (hmem c hc).1 b q
      · simpa using hne
    have hm : 0 < (L.map fun c => dirPrice c b q).sum / (L.length : K) := div_pos hsum hlen
    refine ⟨_, rfl, hm, ?_, ?_⟩
    · unfold price
      dsimp only
      rw [hsome]
      dsimp only
      rw [sumPP_eq (f := fun c => dirPrice c b q) (fun c hc => pp_eq (hmem c hc).1 h (hmem c hc).2 hp), Py.ok_bind,
        pyDiv_ok hlen.ne', Py.ok_bind, if_pos hp]
    · unfold price
      dsimp only
      rw [hsw, hsome]
      dsimp only
      rw [sumPP_eq (f := fun c => dirPrice c b q) (fun c hc => pp_eq (hmem c hc).1 h (hmem c hc).2 hp), Py.ok_bind,
        pyDiv_ok hlen.ne', Py.ok_bind, if_neg (by rw [hns]; simp), pyDiv_ok hm.ne', Py.ok_bind]

theorem trades_comm (c : CPC K) (b q : Str) : Trades c q b ↔ Trades c b q := by
  unfold Trades; exact Or.comm

/-- **C73** The price of a pair of different tokens: there is one exactly if a curve trades the pair, in whatever direction; it lies
between the smallest and the largest price that the curves quote in the direction asked for; and the price in the reverse
direction is its reciprocal. -/
theorem C73_price (cc : CC K) (hb : Built cc) (hs : ∀ c ∈ cc.curves, CPC.Sound c) (b q : Str) (h : b ≠ q) :
    (cc.price b q = .ok none ↔ ∀ c ∈ cc.curves, ¬ Trades c b q) ∧
    ((∃ c ∈ cc.curves, Trades c b q) → ∃ m, 0 < m ∧ cc.price b q = .ok (some m) ∧ cc.price q b = .ok (some (1 / m)) ∧
      (∀ lo, (∀ c ∈ cc.curves, Trades c b q → lo ≤ dirPrice c b q) → lo ≤ m) ∧
      (∀ hi, (∀ c ∈ cc.curves, Trades c b q → dirPrice c b q ≤ hi) → m ≤ hi)) := by
  have hnil : cc.curves.filter (fun c => decide (Trades c b q)) = [] ↔ ∀ c ∈ cc.curves, ¬ Trades c b q := by
    rw [List.filter_eq_nil_iff]; simp
  have hcomm : cc.curves.filter (fun c => decide (Trades c q b)) = cc.curves.filter (fun c => decide (Trades c b q)) :=
    List.filter_congr fun c _ => by rw [decide_eq_decide]; exact trades_comm c b q
  have hmem : ∀ c, c ∈ cc.curves.filter (fun c => decide (Trades c b q)) → c ∈ cc.curves ∧ Trades c b q := by
    intro c hc; rw [List.mem_filter] at hc; exact ⟨hc.1, by simpa using hc.2⟩
  have main : (cc.curves.filter (fun c => decide (Trades c b q)) = [] → cc.price b q = .ok none) ∧
      (cc.curves.filter (fun c => decide (Trades c b q)) ≠ [] →
        ∃ m, 0 < m ∧ cc.price b q = .ok (some m) ∧ cc.price q b = .ok (some (1 / m)) ∧
      (∀ lo, (∀ c ∈ cc.curves, Trades c b q → lo ≤ dirPrice c b q) → lo ≤ m) ∧
      (∀ hi, (∀ c ∈ cc.curves, Trades c b q → dirPrice c b q ≤ hi) → m ≤ hi)) := by
    cases hp : (TPair.fromTokens b q).isprimary TPair.prettify with
    | true =>
      obtain ⟨s1, s2⟩ := price_spec hb hs h hp
      refine ⟨fun e => (s1 e).1, fun e => ?_⟩
      obtain ⟨m, rfl, hm, h1, h2⟩ := s2 e
      have hlen : (0 : K) < ((cc.curves.filter fun c => decide (Trades c b q)).length : K) := by
        have : 0 < (cc.curves.filter fun c => decide (Trades c b q)).length := List.length_pos_iff.mpr e
        exact_mod_cast this
      refine ⟨_, hm, h1, h2, ?_, ?_⟩
      · intro lo hlo
        rw [le_div_iff₀ hlen, mul_comm]
        exact le_sum_of _ _ _ fun c hc => hlo c (hmem c hc).1 (hmem c hc).2
      · intro hi hhi
        rw [div_le_iff₀ hlen, mul_comm]
        exact sum_le_of _ _ _ fun c hc => hhi c (hmem c hc).1 (hmem c hc).2
    | false =>
      have hp' : (TPair.fromTokens q b).isprimary TPair.prettify = true := by
        rw [TPair.C44_exactly_one _ _ _ h, hp]; rfl
      obtain ⟨s1, s2⟩ := price_spec hb hs h.symm hp'
      rw [hcomm] at s1 s2
      refine ⟨fun e => (s1 e).2, fun e => ?_⟩
      obtain ⟨m, hmeq, hm, h1, h2⟩ := s2 e
      have hlen : (0 : K) < ((cc.curves.filter fun c => decide (Trades c b q)).length : K) := by
        have : 0 < (cc.curves.filter fun c => decide (Trades c b q)).length := List.length_pos_iff.mpr e
        exact_mod_cast this
      have hr : 0 < 1 / m := one_div_pos.mpr hm
      refine ⟨1 / m, hr, h2, by rw [one_div_one_div]; exact h1, ?_, ?_⟩
      · intro lo hlo
        by_cases hl0 : lo ≤ 0
        · exact hl0.trans hr.le
        · have hl0 : 0 < lo := not_le.mp hl0
          rw [le_one_div hl0 hm, hmeq, div_le_iff₀ hlen, mul_comm]
          refine sum_le_of _ _ _ fun c hc => ?_
          rw [dirPrice_swap h (hmem c hc).2]
          exact one_div_le_one_div_of_le hl0 (hlo c (hmem c hc).1 (hmem c hc).2)
      · intro hi hhi
        obtain ⟨c0, hc0⟩ := List.exists_mem_of_ne_nil _ e
        have hpos : 0 < hi := lt_of_lt_of_le (dirPrice_pos (hs c0 (hmem c0 hc0).1) b q) (hhi c0 (hmem c0 hc0).1 (hmem c0 hc0).2)
        rw [one_div_le hm hpos, hmeq, le_div_iff₀ hlen, mul_comm]
        refine le_sum_of _ _ _ fun c hc => ?_
        have hs' := hs c (hmem c hc).1
        rw [dirPrice_swap h (hmem c hc).2]
        exact one_div_le_one_div_of_le (dirPrice_pos hs' b q) (hhi c (hmem c hc).1 (hmem c hc).2)
  constructor
  · constructor
    · intro hn
      by_contra hne
      rw [← hnil] at hne
      obtain ⟨m, -, h1, -⟩ := main.2 hne
      rw [h1] at hn
      cases Except.ok.inj hn
    · intro hall
      exact main.1 (hnil.mpr hall)
  · rintro ⟨c, hc, ht⟩
    refine main.2 fun hn => ?_
    exact hnil.mp hn c hc ht

end

/-! ## C74: the price estimate -/

section
open CPC (Sound)

theorem mapM_ok {α β : Type} {f : α → Py β} {g : α → β} {l : List α} (h : ∀ a ∈ l, f a = .ok (g a)) :
    l.mapM f = .ok (l.map g) := by
  induction l with
  | nil => rfl
  | cons a l ih =>
    rw [List.mapM_cons, h a (by simp), Py.ok_bind, ih fun b hb => h b (by simp [hb])]
    rfl

/-- The curves used for an estimate: those that trade the pair and are not at the boundary of their range. -/
def Usable (c : CPC ℝ) (b q : Str) : Prop := c.atBoundary = false ∧ Trades c b q

/-- The curves used, those with the pair as given first. -/
noncomputable def directs (cc : CC ℝ) (b q : Str) : List (CPC ℝ) :=
  cc.curves.filter fun c => !c.atBoundary && decide (c.tknq = q) && decide (c.tknb = b)

theorem mem_directs {cc : CC ℝ} {b q : Str} {c : CPC ℝ} :
    c ∈ directs cc b q ↔ c ∈ cc.curves ∧ c.atBoundary = false ∧ c.tknb = b ∧ c.tknq = q := by
  unfold directs
  rw [List.mem_filter]
  simp only [Bool.and_eq_true, Bool.not_eq_true', decide_eq_true_eq]
  tauto

theorem estimateData_eq {cc : CC ℝ} (hs : ∀ c ∈ cc.curves, Sound c) {b q : Str} (h : b ≠ q) :
    cc.estimateData b q =
      .ok ((directs cc b q ++ directs cc q b).map fun c => (dirPrice c b q, Real.sqrt c.k)) := by
  have h1 : (cc.curves.filter fun c => !c.atBoundary && decide (c.tknb = q) && decide (c.tknq = b)) = directs cc q b := by
    unfold directs
    apply List.filter_congr
    intro c _
    cases c.atBoundary <;> simp [Bool.and_comm]
  unfold estimateData
  dsimp only
  rw [h1, mapM_ok (g := fun c => (1 / c.p, c.k)) (fun c hc => by
    rw [pyDiv_ok (p_pos (hs c (mem_directs.mp hc).1)).ne', Py.ok_bind]), Py.ok_bind,
    mapM_ok (g := fun r => (r.1, Real.sqrt r.2))]
  · rw [List.map_append, List.map_append, List.map_map, List.map_map]
    congr 2
    · apply List.map_congr_left
      intro c hc
      obtain ⟨-, -, e1, e2⟩ := mem_directs.mp hc
      simp only [Function.comp_apply]
      unfold dirPrice
      rw [if_pos ⟨e1, e2⟩]
    · apply List.map_congr_left
      intro c hc
      obtain ⟨-, -, e1, e2⟩ := mem_directs.mp hc
      simp only [Function.comp_apply]
      unfold dirPrice
      rw [if_neg (fun hh => h (hh.1.symm.trans e1))]
  · intro r hr
    have hk : 0 ≤ r.2 := by
      rcases List.mem_append.mp hr with hr | hr
      · obtain ⟨c, hc, rfl⟩ := List.mem_map.mp hr
        exact (hs c (List.mem_of_mem_filter hc)).hk.le
      · obtain ⟨c, hc, rfl⟩ := List.mem_map.mp hr
        exact (hs c (mem_directs.mp hc).1).hk.le
    rw [CPC.sqrtE_ok hk, Py.ok_bind]

theorem weighted_le (l : List (ℝ × ℝ)) (M : ℝ) (h : ∀ d ∈ l, d.1 ≤ M ∧ 0 < d.2) :
    (l.map fun d => d.1 * d.2).sum ≤ M * (l.map fun d => d.2).sum := by
  induction l with
  | nil => simp
  | cons a l ih =>
    simp only [List.map_cons, List.sum_cons]
    have h1 := h a (by simp)
    have h2 := ih fun b hb => h b (by simp [hb])
    nlinarith [h1.1, h1.2]

theorem le_weighted (l : List (ℝ × ℝ)) (m : ℝ) (h : ∀ d ∈ l, m ≤ d.1 ∧ 0 < d.2) :
    m * (l.map fun d => d.2).sum ≤ (l.map fun d => d.1 * d.2).sum := by
  induction l with
  | nil => simp
  | cons a l ih =>
    simp only [List.map_cons, List.sum_cons]
    have h1 := h a (by simp)
    have h2 := ih fun b hb => h b (by simp [hb])
    nlinarith [h1.1, h1.2]

/-- The inequality of Cauchy and Schwarz. -/
theorem cauchy (l : List (ℝ × ℝ)) (h : ∀ d ∈ l, 0 < d.1 ∧ 0 < d.2) :
    (l.map fun d => d.2).sum ^ 2 ≤ (l.map fun d => d.1 * d.2).sum * (l.map fun d => 1 / d.1 * d.2).sum ∧
      0 ≤ (l.map fun d => d.2).sum ∧ 0 ≤ (l.map fun d => d.1 * d.2).sum ∧ 0 ≤ (l.map fun d => 1 / d.1 * d.2).sum := by
  induction l with
  | nil => simp
  | cons a l ih =>
    obtain ⟨h0, hS, hA, hB⟩ := ih fun b hb => h b (by simp [hb])
    obtain ⟨hp, hw⟩ := h a (by simp)
    simp only [List.map_cons, List.sum_cons]
    set S := (l.map fun d => d.2).sum
    set A := (l.map fun d => d.1 * d.2).sum
    set B := (l.map fun d => 1 / d.1 * d.2).sum
    have e : a.1 * (1 / a.1) = 1 := by field_simp
    have hr : 0 < 1 / a.1 := one_div_pos.mpr hp
    refine ⟨?_, by positivity, by positivity, by positivity⟩
    set r := 1 / a.1
    have h2 : 2 * S ≤ A * r + B * a.1 := by
      apply abs_le_of_sq_le_sq' _ (by positivity) |>.2
      have : (A * r) * (B * a.1) = A * B := by
        calc (A * r) * (B * a.1) = A * B * (a.1 * r) := by ring
          _ = A * B := by rw [e, mul_one]
      nlinarith [sq_nonneg (A * r - B * a.1)]
    have h3 : a.1 * a.2 * (r * a.2) = a.2 ^ 2 := by
      calc a.1 * a.2 * (r * a.2) = (a.1 * r) * a.2 ^ 2 := by ring
        _ = a.2 ^ 2 := by rw [e, one_mul]
    nlinarith [mul_le_mul_of_nonneg_left h2 hw.le]

/-- **C74** The estimated price of a pair of different tokens: there is one exactly if a curve that is not at the boundary of its range
trades the pair, otherwise the call raises or, if so configured, returns nothing; it lies between the smallest and largest price
these curves quote in the direction asked for; and estimating both directions never loses: the product of the two estimates is at
least one. -/
theorem C74_estimate_partial (cc : CC ℝ) (hs : ∀ c ∈ cc.curves, Sound c) (b q : Str) (h : b ≠ q) :
    ((∀ c ∈ cc.curves, ¬ Usable c b q) →
      cc.priceEstimate b q = .error .value ∧ cc.priceEstimate b q false = .ok none) ∧
    ((∃ c ∈ cc.curves, Usable c b q) → ∀ rais, ∃ m m', cc.priceEstimate b q rais = .ok (some m) ∧
      cc.priceEstimate q b rais = .ok (some m') ∧ 0 < m ∧ 1 ≤ m * m' ∧
      (∀ lo, (∀ c ∈ cc.curves, Usable c b q → lo ≤ dirPrice c b q) → lo ≤ m) ∧
      (∀ hi, (∀ c ∈ cc.curves, Usable c b q → dirPrice c b q ≤ hi) → m ≤ hi)) := by
  have hus : ∀ c, c ∈ directs cc b q ++ directs cc q b ↔ c ∈ cc.curves ∧ Usable c b q := by
    intro c
    rw [List.mem_append, mem_directs, mem_directs]
    unfold Usable Trades
    tauto
  have hmap : ∀ d ∈ (directs cc b q ++ directs cc q b).map (fun c => (dirPrice c b q, Real.sqrt c.k)),
      0 < d.1 ∧ 0 < d.2 := by
    intro d hd
    obtain ⟨c, hc, rfl⟩ := List.mem_map.mp hd
    have := hs c ((hus c).mp hc).1
    exact ⟨dirPrice_pos this b q, Real.sqrt_pos.mpr this.hk⟩
  constructor
  · intro hno
    have hnil : directs cc b q ++ directs cc q b = [] := by
      apply List.eq_nil_iff_forall_not_mem.mpr
      intro c hc
      exact hno c ((hus c).mp hc).1 ((hus c).mp hc).2
    unfold priceEstimate
    rw [if_neg (Ne.symm h), if_neg (Ne.symm h), estimateData_eq hs h, hnil]
    exact ⟨rfl, rfl⟩
  · rintro ⟨c0, hc0, hu0⟩ rais
    have hmem0 := (hus c0).mpr ⟨hc0, hu0⟩
    have hne : (directs cc b q ++ directs cc q b).map (fun c => (dirPrice c b q, Real.sqrt c.k)) ≠ [] := by
      intro hn
      rw [List.map_eq_nil_iff] at hn
      rw [hn] at hmem0
      exact absurd hmem0 (by simp)
    have hne' : (directs cc q b ++ directs cc b q).map (fun c => (dirPrice c q b, Real.sqrt c.k)) ≠ [] := by
      intro hn
      rw [List.map_eq_nil_iff, List.append_eq_nil_iff] at hn
      rw [hn.1, hn.2] at hmem0
      exact absurd hmem0 (by simp)
    set E := (directs cc b q ++ directs cc q b).map (fun c => (dirPrice c b q, Real.sqrt c.k)) with hE
    set F := (directs cc q b ++ directs cc b q).map (fun c => (dirPrice c q b, Real.sqrt c.k)) with hF
    have hS : 0 < (E.map fun d => d.2).sum := by
      apply List.sum_pos
      · intro x hx
        obtain ⟨d, hd, rfl⟩ := List.mem_map.mp hx
        exact (hmap d hd).2
      · simpa using hne
    have hA : 0 < (E.map fun d => d.1 * d.2).sum := by
      apply List.sum_pos
      · intro x hx
        obtain ⟨d, hd, rfl⟩ := List.mem_map.mp hx
        exact mul_pos (hmap d hd).1 (hmap d hd).2
      · simpa using hne
    have hFS : (F.map fun d => d.2).sum = (E.map fun d => d.2).sum := by
      rw [hE, hF, List.map_map, List.map_map]
      simp only [List.map_append, List.sum_append, Function.comp_def]
      ring
    have hFB : (F.map fun d => d.1 * d.2).sum = (E.map fun d => 1 / d.1 * d.2).sum := by
      rw [hE, hF, List.map_map, List.map_map]
      simp only [List.map_append, List.sum_append, Function.comp_def]
      rw [add_comm]
      congr 2
      · apply List.map_congr_left
        intro c hc
        have := ((hus c).mp (List.mem_append_left _ hc))
        rw [dirPrice_swap h this.2.2]
      · apply List.map_congr_left
        intro c hc
        have := ((hus c).mp (List.mem_append_right _ hc))
        rw [dirPrice_swap h this.2.2]
    refine ⟨(E.map fun d => d.1 * d.2).sum / (E.map fun d => d.2).sum,
      (F.map fun d => d.1 * d.2).sum / (F.map fun d => d.2).sum, ?_, ?_, div_pos hA hS, ?_, ?_, ?_⟩
    · unfold priceEstimate
      rw [if_neg (Ne.symm h), estimateData_eq hs h, Py.ok_bind, if_neg hne, pyDiv_ok hS.ne', Py.ok_bind]
    · unfold priceEstimate
      rw [if_neg h, estimateData_eq hs (Ne.symm h), Py.ok_bind, if_neg hne', pyDiv_ok (by rw [hFS]; exact hS.ne'), Py.ok_bind]
    · rw [hFS, hFB, div_mul_div_comm, le_div_iff₀ (mul_pos hS hS), one_mul, ← sq]
      exact (cauchy E hmap).1
    · intro lo hlo
      rw [le_div_iff₀ hS]
      refine le_weighted E lo fun d hd => ⟨?_, (hmap d hd).2⟩
      obtain ⟨c, hc, rfl⟩ := List.mem_map.mp hd
      exact hlo c ((hus c).mp hc).1 ((hus c).mp hc).2
    · intro hi hhi
      rw [div_le_iff₀ hS]
      refine weighted_le E hi fun d hd => ⟨?_, (hmap d hd).2⟩
      obtain ⟨c, hc, rfl⟩ := List.mem_map.mp hd
      exact hhi c ((hus c).mp hc).1 ((hus c).mp hc).2

/-- **C74** If all curves that are used quote the same price, both estimates are that price and its reciprocal. -/
theorem C74_agreement (cc : CC ℝ) (hs : ∀ c ∈ cc.curves, Sound c) (b q : Str) (h : b ≠ q) (p : ℝ)
    (hp : ∀ c ∈ cc.curves, Usable c b q → dirPrice c b q = p) (hex : ∃ c ∈ cc.curves, Usable c b q) :
    cc.priceEstimate b q = .ok (some p) ∧ cc.priceEstimate q b = .ok (some (1 / p)) := by
  have hex' : ∃ c ∈ cc.curves, Usable c q b := by
    obtain ⟨c, hc, h1, h2⟩ := hex
    exact ⟨c, hc, h1, (trades_comm c b q).mpr h2⟩
  obtain ⟨m, m', h1, -, -, -, h3, h4⟩ := (C74_estimate_partial cc hs b q h).2 hex true
  obtain ⟨n, n', g1, -, -, -, g3, g4⟩ := (C74_estimate_partial cc hs q b (Ne.symm h)).2 hex' true
  have hq : ∀ c ∈ cc.curves, Usable c q b → dirPrice c q b = 1 / p := by
    intro c hc hu
    have ht := (trades_comm c b q).mp hu.2
    rw [dirPrice_swap h ht, hp c hc ⟨hu.1, ht⟩]
  rw [h1, g1, le_antisymm (h4 p fun c hc hu => (hp c hc hu).le) (h3 p fun c hc hu => (hp c hc hu).ge),
    le_antisymm (g4 _ fun c hc hu => (hq c hc hu).le) (g3 _ fun c hc hu => (hq c hc hu).ge)]
  exact ⟨rfl, rfl⟩

end

end CC

end Carbon
