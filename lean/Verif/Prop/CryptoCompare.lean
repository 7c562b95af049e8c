import Verif.Helpers.CryptoCompare
import Verif.Prop.CpcContainer
import Verif.Prop.DataTools
import Mathlib.Data.List.Nodup

/-!
# C143, C144: requests to the data service, cached access and tables of prices
-/

namespace Carbon

namespace CC0

variable {δ K : Type}

/-! ## C143: requests and cached access -/

section Requests

theorem lookup_filterMap (params : List (Str × Option Val)) (k : Str) (v : Val) (hn : (params.map Prod.fst).Nodup) :
    dictGet (params.filterMap fun kv => kv.2.map fun v => (kv.1, v)) k = some v ↔ (k, some v) ∈ params := by
  induction params with
  | nil => simp [dictGet]
  | cons p params ih =>
    obtain ⟨a, b⟩ := p
    rw [List.map_cons, List.nodup_cons] at hn
    have hmem : ∀ w : Option Val, (k, w) ∈ params → a ≠ k := by
      intro w h e
      exact hn.1 (List.mem_map.mpr ⟨(k, w), h, e.symm⟩)
    cases b with
    | none =>
      rw [List.filterMap_cons_none (by rfl), ih hn.2]
      simp
    | some b =>
      rw [List.filterMap_cons_some (by rfl)]
      by_cases hk : a = k
      · simp only [dictGet, if_pos hk, Option.some.injEq, List.mem_cons, Prod.mk.injEq]
        constructor
        · intro h; exact Or.inl ⟨hk.symm, by rw [h]⟩
        · rintro (⟨_, h⟩ | h)
          · exact h.symm
          · exact absurd hk (hmem _ h)
      · simp only [dictGet, if_neg hk, List.mem_cons, Prod.mk.injEq]
        rw [ih hn.2]
        constructor
        · exact Or.inr
        · rintro (⟨h, _⟩ | h)
          · exact absurd h.symm hk
          · exact h

theorem query_get (c : Client) (api : Api δ K) (endpoint : Str) (params : List (Str × Option Val)) :
    query c api endpoint params = if (api ⟨endpoint, sent c params⟩).success then (.ok (some (api ⟨endpoint, sent c params⟩)), [⟨endpoint, sent c params⟩])
      else if c.raiseonerror then (.error .attr, [⟨endpoint, sent c params⟩]) else (.ok none, [⟨endpoint, sent c params⟩]) := by
  unfold query
  exact if_pos rfl

/-- C143: a query sends one request to its endpoint; it has the parameters that are not none, and the key unless the service is used without one.
A successful reply is the result; without exceptions a failure gives none. -/
theorem C143_request (c : Client) (api : Api δ K) (endpoint : Str) (params : List (Str × Option Val)) (hn : (params.map Prod.fst).Nodup) :
    ∃ rq, (query c api endpoint params).2 = [rq] ∧ rq.endpoint = endpoint ∧
      (∀ k v, k ≠ "api_key".toList → (dictGet rq.params k = some v ↔ (k, some v) ∈ params)) ∧
      (∀ key, c.apikey = some key → dictGet rq.params "api_key".toList = some (.str key)) ∧
      (c.apikey = none → ∀ v, dictGet rq.params "api_key".toList = some v ↔ ("api_key".toList, some v) ∈ params) ∧
      ((api rq).success = true → (query c api endpoint params).1 = .ok (some (api rq))) ∧
      ((api rq).success = false → c.raiseonerror = false → (query c api endpoint params).1 = .ok none) := by
  have hq : ∀ rq : Request, rq = ⟨endpoint, sent c params⟩ → query c api endpoint params =
      if (api rq).success then (.ok (some (api rq)), [rq]) else if c.raiseonerror then (.error .attr, [rq]) else (.ok none, [rq]) := by
    intro rq h
    rw [query_get, h]
  refine ⟨⟨endpoint, sent c params⟩, ?_, rfl, ?_, ?_, ?_, ?_, ?_⟩
  · rw [hq _ rfl]
    split
    · rfl
    · split <;> rfl
  · intro k v hk
    dsimp only
    rw [← lookup_filterMap params k v hn]
    unfold sent
    dsimp only
    cases c.apikey with
    | none => rfl
    | some key => dsimp only; rw [dictGet_set, if_neg hk.symm]
  · intro key h
    dsimp only
    unfold sent
    dsimp only
    rw [h]
    dsimp only
    rw [dictGet_set, if_pos rfl]
  · intro h v
    dsimp only
    rw [← lookup_filterMap params _ v hn]
    unfold sent
    dsimp only
    rw [h]
  · intro h
    rw [hq _ rfl, if_pos h]
  · intro h hr
    rw [hq _ rfl, h, hr]
    rfl

/-- C143: other methods than GET are refused, without any request. -/
theorem C143_method (c : Client) (api : Api δ K) (endpoint : Str) (params : List (Str × Option Val)) (m : Str) (hm : m ≠ "GET".toList) :
    query c api endpoint params (some m) = (.error .value, []) := by
  unfold query
  exact if_neg hm

/-- C143 fails for requests that fail where exceptions are asked for: the documented exception is not raised, since its text asks for an
attribute which replies do not have. -/
theorem C143_failed_violated (c : Client) (api : Api δ K) (endpoint : Str) (params : List (Str × Option Val)) (hr : c.raiseonerror = true)
    (h : ∀ rq, (query c api endpoint params).2 = [rq] → (api rq).success = false) :
    (query c api endpoint params).1 = .error .attr ∧ (query c api endpoint params).1 ≠ .error runtimeError := by
  have hf : (api ⟨endpoint, sent c params⟩).success = false := by
    refine h _ ?_
    rw [query_get]
    split <;> rfl
  have : (query c api endpoint params).1 = .error .attr := by
    rw [query_get]
    rw [hf, hr]
    rfl
  rw [this]
  refine ⟨rfl, ?_⟩
  intro e
  cases e

/-- C143: the key is the one that is passed, or that of the environment variable; without key in the environment, and for keys of other
types, the client is not made. -/
theorem C143_key (env : Str → Option Str) (name : Option Str) (k : Str) (r : Option Bool) :
    (∃ c, new env name (.text k) r = .ok c ∧ c.apikey = some k ∧ c.raiseonerror = r.getD true) ∧
    (∃ c, new env name .anonymous r = .ok c ∧ c.apikey = none ∧ c.raiseonerror = r.getD true) ∧
    (env (name.getD "CCAPIKEY".toList) = some k → ∃ c, new env name .none r = .ok c ∧ c.apikey = some k ∧ c.raiseonerror = r.getD true) ∧
    (env (name.getD "CCAPIKEY".toList) = none → new env name .none r = .error runtimeError) ∧ new env name .other r = .error .value := by
  refine ⟨⟨_, rfl, rfl, rfl⟩, ⟨_, rfl, rfl, rfl⟩, ?_, ?_, rfl⟩
  · intro h
    refine ⟨⟨some k, r.getD true⟩, ?_, rfl, rfl⟩
    unfold new
    dsimp only
    rw [h]
  · intro h
    unfold new
    dsimp only
    rw [h]

/-- C143: what is written to the cache is read from it, and other items stay. -/
theorem C143_write (c : Client) (s : Store δ) (item other : Str) (d : Option δ) :
    cache c (writeCache s item d) item = .ok d ∧ (other ≠ item → cache c (writeCache s item d) other = cache c s other) := by
  constructor
  · unfold cache writeCache
    rw [dictGet_set, if_pos rfl]
  · intro h
    unfold cache writeCache
    rw [dictGet_set, if_neg h.symm]

/-- C143: data in the cache is given without a request, whatever the arguments, and the cache stays as it is. -/
theorem C143_hit (c : Client) (s : Store δ) (item : Str) (d : Option δ) (u : Py (Option δ) × List Request) (r w : Bool)
    (h : cache { c with raiseonerror := true } s item = .ok d) : cacheXxx c s item u r w = (.ok d, [], s) := by
  have : dictGet s item = some d := by
    unfold cache at h
    split at h
    · rename_i x hx; cases h; exact hx
    · cases h
  unfold cacheXxx cache
  rw [this]

/-- C143, as far as it holds for data that is not in the cache: where exceptions are asked for, the data is read from the service if one of the
arguments says so, and else `FileNotFoundError` is raised without a request. It is stored if the argument says so; then the next access
gives it without a request. Otherwise the cache stays as it is. -/
theorem C143_miss_partial (c : Client) (s : Store δ) (item : Str) (u : Py (Option δ) × List Request) (r w : Bool) (hr : c.raiseonerror = true)
    (h : cache c s item = .error notFound) :
    (r = true ∨ w = true → (cacheXxx c s item u r w).1 = u.1 ∧ (cacheXxx c s item u r w).2.1 = u.2) ∧
    (r = false → w = false → cacheXxx c s item u r w = (.error notFound, [], s)) ∧
    (w = true → ∀ d, u.1 = .ok d → (∀ u' r' w', cacheXxx c (cacheXxx c s item u r w).2.2 item u' r' w' = (.ok d, [], (cacheXxx c s item u r w).2.2)) ∧
      ∀ other, other ≠ item → cache c (cacheXxx c s item u r w).2.2 other = cache c s other) ∧
    (w = false ∨ (∃ e, u.1 = .error e) → (cacheXxx c s item u r w).2.2 = s) := by
  have hx : cacheXxx c s item u r w = if w || r then
      (match u.1 with
      | .error e => (.error e, u.2, s)
      | .ok d => (.ok d, u.2, if w then writeCache s item d else s)) else (.error notFound, [], s) := by
    unfold cacheXxx
    rw [h]
    dsimp only
    rw [if_pos hr]
    cases u.1 <;> rfl
  refine ⟨?_, ?_, ?_, ?_⟩
  · intro hrw
    rw [hx, if_pos (by rcases hrw with h | h <;> simp [h])]
    cases u.1 <;> exact ⟨rfl, rfl⟩
  · intro h1 h2
    rw [hx, h1, h2]
    rfl
  · intro hw d hd
    have hs : (cacheXxx c s item u r w).2.2 = writeCache s item d := by
      rw [hx, hw, hd]
      rfl
    rw [hs]
    refine ⟨fun u' r' w' => C143_hit c _ item d u' r' w' ?_, fun other ho => (C143_write c s item other d).2 ho⟩
    exact (C143_write _ s item item d).1
  · intro hw
    rw [hx]
    split
    · rcases hw with hw | ⟨e, he⟩
      · rw [hw]
        cases u.1 <;> rfl
      · rw [he]
    · rfl

/-- C143 fails for data that is not in the cache where no exceptions are asked for: the result is none, without any request, even if the arguments
say that the data is to be read and stored. -/
theorem C143_miss_violated (c : Client) (s : Store δ) (item : Str) (u : Py (Option δ) × List Request) (r w : Bool) (hr : c.raiseonerror = false)
    (h : cache { c with raiseonerror := true } s item = .error notFound) : cacheXxx c s item u r w = (.ok none, [], s) := by
  have : dictGet s item = none := by
    unfold cache at h
    split at h
    · cases h
    · assumption
  unfold cacheXxx cache
  rw [this, hr]
  rfl

/-- C143 fails for the arguments of the cached lists: they have no effect. Data that is not in the cache is read from the service even if it should
not, and is not stored even if it should, so each access sends the request again. -/
theorem C143_flags_violated (c : Client) (api : Api δ K) (s : Store δ) (item endpoint : Str) (r w : Bool) (hr : c.raiseonerror = true)
    (h : cache c s item = .error notFound) :
    (cacheList c api s item endpoint r w).1 = (queryList c api endpoint).1 ∧ (∃ rq, (cacheList c api s item endpoint r w).2.1 = [rq] ∧ rq.endpoint = endpoint) ∧
    (cacheList c api s item endpoint r w).2.2 = s := by
  obtain ⟨h1, _, _, h4⟩ := C143_miss_partial c s item (queryList c api endpoint) true false hr h
  obtain ⟨e1, e2⟩ := h1 (Or.inl rfl)
  refine ⟨e1, ?_, h4 (Or.inl rfl)⟩
  obtain ⟨rq, hq, he, _⟩ := C143_request c api endpoint [] List.nodup_nil
  refine ⟨rq, ?_, he⟩
  rw [show (cacheList c api s item endpoint r w).2.1 = (queryList c api endpoint).2 from e2]
  unfold queryList
  split <;> (rename_i hh; rw [hh] at hq; exact hq)

/-- C143: a list is the data of the reply to a request without parameters. -/
theorem C143_list (c : Client) (api : Api δ K) (endpoint : Str) (r : Reply δ K) (h : (query c api endpoint).1 = .ok (some r)) :
    (queryList c api endpoint).1 = .ok r.data ∧ (queryList c api endpoint).2 = (query c api endpoint).2 := by
  unfold queryList
  split
  · rename_i hh; rw [hh] at h; cases h
  · rename_i hh; rw [hh] at h; cases h; rw [hh]; exact ⟨rfl, rfl⟩
  · rename_i hh; rw [hh] at h; cases h

end Requests

/-! ## C144: tables of prices -/

section Tables

theorem dictGet_option {d : List (Str × Val)} {params : List (Str × Option Val)} {k : Str} {o : Option Val} (hn : (params.map Prod.fst).Nodup)
    (h : ∀ v, dictGet d k = some v ↔ (k, some v) ∈ params) (ho : (k, o) ∈ params) : dictGet d k = o := by
  cases o with
  | some v => exact (h v).mpr ho
  | none =>
    cases hd : dictGet d k with
    | none => rfl
    | some v =>
      have := List.inj_on_of_nodup_map hn ((h v).mp hd) ho rfl
      simp at this

/-- C144: a history is asked for with one request, for the frequency that is given, with the symbols, the exchange, the limit and the last date that are
given; without a second symbol it is `usd`, without a limit it is 2000, and what is none is not sent. -/
theorem C144_request (c : Client) (api : Api δ K) (freq : Str) (fsym tsym e : Option Str) (limit : Limit) (toTs : Option Val) (b : Bool)
    (hf : freq = "day".toList ∨ freq = "hour".toList ∨ freq = "minute".toList) :
    ∃ rq, (queryPair c api freq fsym tsym e limit toTs b).2 = [rq] ∧ rq.endpoint = "/data/v2/histo".toList ++ freq ∧
      dictGet rq.params "fsym".toList = fsym.map .str ∧ dictGet rq.params "tsym".toList = some (.str (tsym.getD "usd".toList)) ∧
      dictGet rq.params "e".toList = e.map .str ∧ dictGet rq.params "toTs".toList = toTs ∧
      dictGet rq.params "limit".toList = (match limit with
        | .default => some (.int 2000)
        | .none => none
        | .num n => some (.int n)) ∧
      dictGet rq.params "api_key".toList = c.apikey.map .str := by
  obtain ⟨params, hp⟩ : ∃ params : List (Str × Option Val), params = [("fsym".toList, fsym.map .str), ("tsym".toList, some (.str (tsym.getD "usd".toList))),
        ("e".toList, e.map .str), ("limit".toList, limit.value), ("toTs".toList, toTs)] := ⟨_, rfl⟩
  have hn : (params.map Prod.fst).Nodup := by
    rw [hp]
    show (["fsym".toList, "tsym".toList, "e".toList, "limit".toList, "toTs".toList] : List Str).Nodup
    decide +kernel
  obtain ⟨rq, h1, h2, h3, h4, h5, _, _⟩ := C143_request c api ("/data/v2/histo".toList ++ freq) params hn
  have hmem : freq ∈ freqs := by
    unfold freqs
    simpa using hf
  have hget : ∀ k o, k ≠ "api_key".toList → (k, o) ∈ params → dictGet rq.params k = o := fun k o hk ho => dictGet_option hn (fun v => h3 k v hk) ho
  refine ⟨rq, ?_, h2, ?_, ?_, ?_, ?_, ?_, ?_⟩
  · rw [← h1]
    unfold queryPair
    rw [if_neg (not_not.mpr hmem), ← hp]
    split
    · rename_i hh; rw [hh]
    · rename_i hh; rw [hh]
    · rename_i hh
      rw [hh]
      split
      · rfl
      · split <;> rfl
  · exact hget _ _ (by decide +kernel) (by rw [hp]; simp)
  · exact hget _ _ (by decide +kernel) (by rw [hp]; simp)
  · exact hget _ _ (by decide +kernel) (by rw [hp]; simp)
  · exact hget _ _ (by decide +kernel) (by rw [hp]; simp)
  · rw [hget "limit".toList limit.value (by decide +kernel) (by rw [hp]; simp)]
    cases limit <;> rfl
  · cases hk : c.apikey with
    | some k => exact h4 k hk
    | none =>
      cases hd : dictGet rq.params "api_key".toList with
      | none => rfl
      | some v =>
        have hm : "api_key".toList ∈ params.map Prod.fst := List.mem_map.mpr ⟨_, (h5 hk v).mp hd, rfl⟩
        rw [hp] at hm
        have : "api_key".toList ∈ (["fsym".toList, "tsym".toList, "e".toList, "limit".toList, "toTs".toList] : List Str) := hm
        exact absurd this (by decide +kernel)

/-- C144: unknown frequencies are refused, without any request. -/
theorem C144_freq (c : Client) (api : Api δ K) (freq : Str) (fsym tsym e : Option Str) (limit : Limit) (toTs : Option Val) (b : Bool)
    (hf : freq ≠ "day".toList ∧ freq ≠ "hour".toList ∧ freq ≠ "minute".toList) :
    queryPair c api freq fsym tsym e limit toTs b = (.error .value, []) := by
  unfold queryPair
  rw [if_pos]
  unfold freqs
  simpa using hf

theorem queryPair_of {c : Client} {api : Api δ K} {freq : Str} {fsym tsym e : Option Str} {limit : Limit} {toTs : Option Val} {b : Bool} {rq : Request}
    (h : (queryPair c api freq fsym tsym e limit toTs b).2 = [rq]) :
    (queryPair c api freq fsym tsym e limit toTs b).1 = if (api rq).success then
      (if (api rq).isError then (if c.raiseonerror then .error runtimeError else .ok none) else if b then (table (api rq).records).map some else .error .type)
      else if c.raiseonerror then .error .attr else .ok none := by
  by_cases hf : freq ∉ freqs
  · unfold queryPair at h
    rw [if_pos hf] at h
    cases h
  · have key : ∃ rq', queryPair c api freq fsym tsym e limit toTs b = (if (api rq').success then
      (if (api rq').isError then (if c.raiseonerror then .error runtimeError else .ok none) else if b then (table (api rq').records).map some else .error .type)
      else if c.raiseonerror then .error .attr else .ok none, [rq']) := by
      obtain ⟨params, hp⟩ : ∃ params : List (Str × Option Val), params = [("fsym".toList, fsym.map .str), ("tsym".toList, some (.str (tsym.getD "usd".toList))),
          ("e".toList, e.map .str), ("limit".toList, limit.value), ("toTs".toList, toTs)] := ⟨_, rfl⟩
      refine ⟨⟨"/data/v2/histo".toList ++ freq, sent c params⟩, ?_⟩
      unfold queryPair
      rw [if_neg hf, ← hp, query_get]
      obtain ⟨rq', hq⟩ : ∃ rq' : Request, rq' = ⟨"/data/v2/histo".toList ++ freq, sent c params⟩ := ⟨_, rfl⟩
      rw [← hq]
      obtain ⟨R, hR⟩ : ∃ R, R = api rq' := ⟨_, rfl⟩
      rw [← hR]
      obtain ⟨su, er, da, re⟩ := R
      cases su <;> cases c.raiseonerror <;> cases er <;> cases b <;> rfl
    obtain ⟨rq', hk⟩ := key
    rw [hk] at h ⊢
    cases h
    rfl

/-- C144: from a successful reply with records a table results that has a line for each record, in their order, with its time and the six values. -/
theorem C144_table (c : Client) (api : Api δ K) (freq : Str) (fsym tsym e : Option Str) (limit : Limit) (toTs : Option Val) (rq : Request)
    (h : (queryPair c api freq fsym tsym e limit toTs).2 = [rq]) (hs : (api rq).success = true) (he : (api rq).isError = false)
    (hr : (api rq).records ≠ []) :
    (queryPair c api freq fsym tsym e limit toTs).1 = .ok (some ((api rq).records.map fun r => (r.time,
      [("open".toList, r.open_), ("close".toList, r.close), ("high".toList, r.high), ("low".toList, r.low), ("volumefrom".toList, r.volumefrom),
        ("volumeto".toList, r.volumeto)]))) := by
  rw [queryPair_of h, if_pos hs, he]
  simp only [Bool.false_eq_true, if_false, if_true]
  unfold table
  split
  · rename_i hh; exact absurd hh hr
  · rfl

/-- C144: a reply that says that there is an error raises `RuntimeError`, or gives none where no exceptions are asked for. -/
theorem C144_error (c : Client) (api : Api δ K) (freq : Str) (fsym tsym e : Option Str) (limit : Limit) (toTs : Option Val) (b : Bool) (rq : Request)
    (h : (queryPair c api freq fsym tsym e limit toTs b).2 = [rq]) (hs : (api rq).success = true) (he : (api rq).isError = true) :
    (queryPair c api freq fsym tsym e limit toTs b).1 = if c.raiseonerror then .error runtimeError else .ok none := by
  rw [queryPair_of h, if_pos hs, if_pos he]

/-- C144 fails for data that is not wanted as a table: every such query that is answered raises `TypeError`. -/
theorem C144_raw_violated (c : Client) (api : Api δ K) (freq : Str) (fsym tsym e : Option Str) (limit : Limit) (toTs : Option Val) (rq : Request)
    (h : (queryPair c api freq fsym tsym e limit toTs false).2 = [rq]) (hs : (api rq).success = true) (he : (api rq).isError = false) :
    (queryPair c api freq fsym tsym e limit toTs false).1 = .error .type := by
  rw [queryPair_of h, if_pos hs, he]
  rfl

/-- C144 fails for empty histories: they raise `KeyError`, even where no exceptions are asked for. -/
theorem C144_empty_violated (c : Client) (api : Api δ K) (freq : Str) (fsym tsym e : Option Str) (limit : Limit) (toTs : Option Val) (rq : Request)
    (h : (queryPair c api freq fsym tsym e limit toTs).2 = [rq]) (hs : (api rq).success = true) (he : (api rq).isError = false)
    (hr : (api rq).records = []) : (queryPair c api freq fsym tsym e limit toTs).1 = .error .key := by
  rw [queryPair_of h, if_pos hs, he, hr]
  rfl

theorem mem_dictSet {κ ν : Type} [DecidableEq κ] {d : List (κ × ν)} (hn : (d.map Prod.fst).Nodup) (k : κ) (v : ν) :
    ((dictSet d k v).map Prod.fst).Nodup ∧ ∀ x, x ∈ dictSet d k v ↔ x = (k, v) ∨ (x ∈ d ∧ x.1 ≠ k) := by
  induction d with
  | nil => simp [dictSet]
  | cons p d ih =>
    obtain ⟨a, b⟩ := p
    rw [List.map_cons, List.nodup_cons] at hn
    obtain ⟨i1, i2⟩ := ih hn.2
    have out : ∀ x : κ × ν, x ∈ d → x.1 ≠ a := fun x hx e => hn.1 (List.mem_map.mpr ⟨x, hx, e⟩)
    by_cases ha : a = k
    · simp only [dictSet, if_pos ha]
      subst ha
      refine ⟨List.nodup_cons.mpr hn, fun x => ?_⟩
      simp only [List.mem_cons]
      constructor
      · rintro (h | h)
        · exact Or.inl h
        · exact Or.inr ⟨Or.inr h, out x h⟩
      · rintro (h | ⟨h | h, h'⟩)
        · exact Or.inl h
        · rw [h] at h'; exact absurd rfl h'
        · exact Or.inr h
    · simp only [dictSet, if_neg ha]
      constructor
      · rw [List.map_cons, List.nodup_cons]
        refine ⟨fun h => ?_, i1⟩
        obtain ⟨x, hx, e⟩ := List.mem_map.mp h
        rcases (i2 x).mp hx with h | ⟨h, _⟩
        · rw [h] at e; exact ha e.symm
        · exact out x h e
      · intro x
        simp only [List.mem_cons, i2]
        constructor
        · rintro (h | h | ⟨h, h'⟩)
          · exact Or.inr ⟨Or.inl h, by rw [h]; exact ha⟩
          · exact Or.inl h
          · exact Or.inr ⟨Or.inr h, h'⟩
        · rintro (h | ⟨h | h, h'⟩)
          · exact Or.inr (Or.inl h)
          · exact Or.inl h
          · exact Or.inr (Or.inr ⟨h, h'⟩)

theorem foldl_dictSet {α κ ν : Type} [DecidableEq κ] {f : α → κ} {g : α → ν} : ∀ (l : List α) (d : List (κ × ν)), (d.map Prod.fst).Nodup →
    (∀ a ∈ l, ∀ b ∈ l, f a = f b → g a = g b) →
    ((l.foldl (fun d a => dictSet d (f a) (g a)) d).map Prod.fst).Nodup ∧
    ∀ x, x ∈ l.foldl (fun d a => dictSet d (f a) (g a)) d ↔ (∃ a ∈ l, x = (f a, g a)) ∨ (x ∈ d ∧ ∀ a ∈ l, x.1 ≠ f a)
  | [], d, hn, _ => ⟨hn, fun x => by simp⟩
  | a :: l, d, hn, hfun => by
    obtain ⟨n1, m1⟩ := mem_dictSet hn (f a) (g a)
    obtain ⟨n2, m2⟩ := foldl_dictSet l (dictSet d (f a) (g a)) n1 fun x hx y hy => hfun x (List.mem_cons_of_mem _ hx) y (List.mem_cons_of_mem _ hy)
    refine ⟨n2, fun x => ?_⟩
    rw [List.foldl_cons, m2, m1]
    constructor
    · rintro (⟨b, hb, h⟩ | ⟨h | ⟨h, h'⟩, hl⟩)
      · exact Or.inl ⟨b, List.mem_cons_of_mem _ hb, h⟩
      · exact Or.inl ⟨a, List.mem_cons_self, h⟩
      · refine Or.inr ⟨h, fun b hb => ?_⟩
        rcases List.mem_cons.mp hb with e | e
        · rw [e]; exact h'
        · exact hl b e
    · rintro (⟨b, hb, h⟩ | ⟨h, hl⟩)
      · rcases List.mem_cons.mp hb with e | e
        · by_cases hx : ∃ b' ∈ l, f b' = f a
          · obtain ⟨b', hb', e'⟩ := hx
            refine Or.inl ⟨b', hb', ?_⟩
            rw [h, e, e', hfun b' (List.mem_cons_of_mem _ hb') a List.mem_cons_self e']
          · push Not at hx
            refine Or.inr ⟨Or.inl (by rw [h, e]), fun b' hb' => ?_⟩
            rw [h, e]
            exact (hx b' hb').symm
        · exact Or.inl ⟨b, e, h⟩
      · exact Or.inr ⟨Or.inr ⟨h, hl a List.mem_cons_self⟩, fun b hb => hl b (List.mem_cons_of_mem _ hb)⟩

theorem queryAll_of {c : Client} {api : Api δ K} {freq : Str} {tab : Str × Str → Option (Table K)} : ∀ (ps : List (Str × Str)) (d),
    (∀ p ∈ ps, (queryPair c api freq (some p.1) (some p.2)).1 = .ok (tab p)) →
    queryAll c api freq d ps = (.ok (ps.foldl (fun d p => dictSet d p (tab p)) d), ps.flatMap fun p => (queryPair c api freq (some p.1) (some p.2)).2)
  | [], d, _ => rfl
  | p :: ps, d, h => by
    have ih := queryAll_of ps (dictSet d p (tab p)) fun q hq => h q (List.mem_cons_of_mem _ hq)
    have hp := h p List.mem_cons_self
    unfold queryAll
    split
    · rename_i hh; rw [hh] at hp; cases hp
    · rename_i t l hh
      rw [hh] at hp
      cases hp
      dsimp only
      rw [ih, List.flatMap_cons, hh]
      rfl

theorem mem_present {κ : Type} {d : List (κ × Option (Table K))} {k : κ} {t : Table K} : (k, t) ∈ present d ↔ (k, some t) ∈ d := by
  unfold present
  simp only [List.mem_filterMap, Option.map_eq_some_iff, Prod.mk.injEq, Prod.exists]
  constructor
  · rintro ⟨a, b, h, t', h1, h2, h3⟩
    rw [← h2, ← h3, ← h1]; exact h
  · intro h
    exact ⟨k, some t, h, t, rfl, rfl, rfl⟩

theorem present_nodup {κ : Type} {d : List (κ × Option (Table K))} (h : (d.map Prod.fst).Nodup) : ((present d).map Prod.fst).Nodup := by
  have : ((present d).map Prod.fst).Sublist (d.map Prod.fst) := by
    unfold present
    induction d with
    | nil => exact List.Sublist.slnil
    | cons p d ih =>
      obtain ⟨k, o⟩ := p
      rw [List.map_cons, List.nodup_cons] at h
      cases o with
      | none =>
        rw [List.filterMap_cons_none (by rfl)]
        exact (ih h.2).cons _
      | some t =>
        rw [List.filterMap_cons_some (by rfl)]
        exact (ih h.2).cons₂ _
  exact this.nodup h

theorem concat_of {κ : Type} {d : List (κ × Option (Table K))} (h : ∃ k t, (k, some t) ∈ d) :
    concat d = .ok ⟨dates (present d), (present d).flatMap fun kv => fields.map fun fd => ((kv.1, fd), cell kv.2 fd)⟩ := by
  obtain ⟨k, t, h⟩ := h
  have : present d ≠ [] := List.ne_nil_of_mem (mem_present.mpr h)
  unfold concat
  split
  · rename_i hh; exact absurd hh this
  · rfl

theorem mem_dates {κ : Type} {d : List (κ × Option (Table K))} {x : Int} : x ∈ dates (present d) ↔ ∃ k t, (k, some t) ∈ d ∧ x ∈ t.map Prod.fst := by
  unfold dates
  rw [List.mem_dedup, List.mem_flatMap]
  constructor
  · rintro ⟨⟨k, t⟩, h1, h2⟩
    exact ⟨k, t, mem_present.mp h1, h2⟩
  · rintro ⟨k, t, h1, h2⟩
    exact ⟨(k, t), mem_present.mpr h1, h2⟩

theorem mem_cols {κ : Type} {l : List (κ × Table K)} {k : κ} {fd : Str} {col : Int → Option K} :
    ((k, fd), col) ∈ (l.flatMap fun kv => fields.map fun fd => ((kv.1, fd), cell kv.2 fd)) ↔ fd ∈ fields ∧ ∃ t, (k, t) ∈ l ∧ col = cell t fd := by
  simp only [List.mem_flatMap, List.mem_map, Prod.mk.injEq, Prod.exists]
  constructor
  · rintro ⟨k', t, h, fd', hf, ⟨e1, e2⟩, e3⟩
    subst e1 e2
    exact ⟨hf, t, h, e3.symm⟩
  · rintro ⟨hf, t, h, e⟩
    exact ⟨k, t, h, fd, hf, ⟨rfl, rfl⟩, e.symm⟩

/-- The value in a column: that of the line with the date. -/
theorem cell_spec {t : Table K} {f : Str} {d : Int} {v : K} (hn : (t.map Prod.fst).Nodup) (hl : ∀ l ∈ t, (l.2.map Prod.fst).Nodup) :
    cell t f d = some v ↔ ∃ l, (d, l) ∈ t ∧ (f, v) ∈ l := by
  have look : ∀ {α β : Type} [BEq α] [LawfulBEq α] (l : List (α × β)), (l.map Prod.fst).Nodup → ∀ a b, l.lookup a = some b ↔ (a, b) ∈ l := by
    intro α β _ _ l h a b
    induction l with
    | nil => simp
    | cons p l ih =>
      obtain ⟨x, y⟩ := p
      rw [List.map_cons, List.nodup_cons] at h
      rw [List.lookup_cons]
      by_cases hx : a = x
      · subst hx
        simp only [beq_self_eq_true, List.mem_cons, Prod.mk.injEq, true_and]
        constructor
        · intro e; cases e; exact Or.inl rfl
        · rintro (e | e)
          · rw [e]
          · exact absurd (List.mem_map.mpr ⟨_, e, rfl⟩) h.1
      · have : (a == x) = false := by simpa using hx
        rw [this]
        simp only [List.mem_cons, Prod.mk.injEq]
        rw [ih h.2]
        simp [hx]
  unfold cell
  rw [Option.bind_eq_some_iff]
  constructor
  · rintro ⟨l, h1, h2⟩
    have m := (look t hn d l).mp h1
    exact ⟨l, m, (look l (hl _ m) f v).mp h2⟩
  · rintro ⟨l, h1, h2⟩
    exact ⟨l, (look t hn d l).mpr h1, (look l (hl _ h1) f v).mpr h2⟩

theorem mapM_all {α β : Type} {f : α → Py β} {g : α → β} : ∀ {l : List α}, (∀ a ∈ l, f a = .ok (g a)) → l.mapM f = .ok (l.map g)
  | [], _ => rfl
  | a :: l, h => by
    rw [List.mapM_cons, h a List.mem_cons_self, Py.ok_bind, mapM_all fun b hb => h b (List.mem_cons_of_mem _ hb)]
    rfl

/-- The name of a pair determines it, if the symbols have no slash. -/
theorem name_inj {p q : Str × Str} (hp : '/' ∉ p.1 ∧ '/' ∉ p.2) (hq : '/' ∉ q.1 ∧ '/' ∉ q.2) (h : Data.pairFromPt p = Data.pairFromPt q) : p = q := by
  have h1 := (Prop.DataTools.C123_pair p.1 p.2 []).1 hp.1 hp.2
  have h2 := (Prop.DataTools.C123_pair q.1 q.2 []).1 hq.1 hq.2
  rw [show ((p.1, p.2) : Str × Str) = p from rfl, h] at h1
  rw [show ((q.1, q.2) : Str × Str) = q from rfl, h1] at h2
  cases h2
  rfl

theorem reformat_of {d : List ((Str × Str) × Option (Table K))} (hn : (d.map Prod.fst).Nodup) {idx : List Int} {f : Str} (hf : f ∈ fields) :
    ∃ cols, reformat ⟨idx, (present d).flatMap fun kv => fields.map fun fd => ((kv.1, fd), cell kv.2 fd)⟩ f = .ok ⟨idx, cols⟩ ∧
      ∃ ps : List (Str × Str), ps.Nodup ∧ (∀ p, p ∈ ps ↔ ∃ t, (p, some t) ∈ d) ∧ cols.map Prod.fst = ps.map (fun p => (f, Data.pairFromPt p)) ∧
      ∀ p t, (p, some t) ∈ d → ((f, Data.pairFromPt p), cell t f) ∈ cols := by
  obtain ⟨cs, hcs⟩ : ∃ cs : List (((Str × Str) × Str) × (Int → Option K)),
    cs = (present d).flatMap fun kv => fields.map fun fd => ((kv.1, fd), cell kv.2 fd) := ⟨_, rfl⟩
  rw [← hcs]
  obtain ⟨ps, hps⟩ : ∃ ps, ps = (Data.pairsFields (cs.map fun c => (c.1.1.1, c.1.1.2, c.1.2))).1 := ⟨_, rfl⟩
  obtain ⟨F1, _, F3, _⟩ := Prop.DataTools.C123_fields (cs.map fun c => (c.1.1.1, c.1.1.2, c.1.2))
  have hmem : ∀ p, p ∈ ps ↔ ∃ t, (p, some t) ∈ d := by
    intro p
    rw [hps]
    rw [show p = (p.1, p.2) from rfl, F1]
    constructor
    · rintro ⟨fd, h⟩
      obtain ⟨⟨⟨q, fd'⟩, col⟩, hc, e⟩ := List.mem_map.mp h
      rw [hcs, mem_cols] at hc
      obtain ⟨_, t, ht, _⟩ := hc
      refine ⟨t, ?_⟩
      have : p = q := by
        simp only [Prod.mk.injEq] at e
        exact Prod.ext e.1.symm e.2.1.symm
      rw [show ((p.1, p.2) : Str × Str) = p from rfl, this]
      exact mem_present.mp ht
    · rintro ⟨t, ht⟩
      refine ⟨f, List.mem_map.mpr ⟨((p, f), cell t f), ?_, rfl⟩⟩
      rw [hcs, mem_cols]
      exact ⟨hf, t, mem_present.mpr ht, rfl⟩
  obtain ⟨tab, htab⟩ : ∃ tab : Str × Str → Table K, ∀ p t, (p, some t) ∈ d → tab p = t := by
    classical
    refine ⟨fun p => if h : ∃ t, (p, some t) ∈ d then h.choose else [], fun p t h => ?_⟩
    have hex : ∃ t, (p, some t) ∈ d := ⟨t, h⟩
    simp only [dif_pos hex]
    have := List.inj_on_of_nodup_map hn hex.choose_spec h rfl
    simpa using this
  have hfind : ∀ p ∈ ps, (match cs.find? fun c => c.1 = (p, f) with
      | some c => (.ok ((f, Data.pairFromPt p), c.2) : Py _)
      | none => .error .key) = .ok ((f, Data.pairFromPt p), cell (tab p) f) := by
    intro p hp
    obtain ⟨t, ht⟩ := (hmem p).mp hp
    cases hfd : cs.find? fun c => c.1 = (p, f) with
    | none =>
      rw [List.find?_eq_none] at hfd
      refine absurd ?_ (hfd ((p, f), cell t f) ?_)
      · simp
      · rw [hcs, mem_cols]
        exact ⟨hf, t, mem_present.mpr ht, rfl⟩
    | some c =>
      have h1 := List.find?_some hfd
      have h2 := List.mem_of_find?_eq_some hfd
      obtain ⟨⟨q, fd⟩, col⟩ := c
      simp only [decide_eq_true_eq, Prod.mk.injEq] at h1
      rw [hcs, mem_cols, h1.1, h1.2] at h2
      obtain ⟨_, t', ht', e⟩ := h2
      dsimp only
      rw [e, htab p t' (mem_present.mp ht')]
  refine ⟨ps.map fun p => ((f, Data.pairFromPt p), cell (tab p) f), ?_, ps, ?_, hmem, ?_, ?_⟩
  · unfold reformat
    dsimp only
    rw [← hps]
    exact Py.bind_eq_ok.2 ⟨_, mapM_all (g := fun p => ((f, Data.pairFromPt p), cell (tab p) f)) (fun p hp => hfind p hp), rfl⟩
  · rw [hps]; exact F3
  · rw [List.map_map]; rfl
  · intro p t h
    refine List.mem_map.mpr ⟨p, (hmem p).mpr ⟨t, h⟩, ?_⟩
    rw [htab p t h]

/-- What a column is to show: the values of one field of a history. -/
def Shows (t : Table K) (f : Str) (col : Int → Option K) : Prop := ∀ d v, col d = some v ↔ ∃ l, (d, l) ∈ t ∧ (f, v) ∈ l

theorem queryPair_lines {c : Client} {api : Api δ K} {freq : Str} {fsym tsym : Option Str} {t : Table K}
    (h : (queryPair c api freq fsym tsym).1 = .ok (some t)) : ∀ l ∈ t, l.2.map Prod.fst = fields := by
  by_cases hf : freq = "day".toList ∨ freq = "hour".toList ∨ freq = "minute".toList
  · obtain ⟨rq, hrq, _⟩ := C144_request c api freq fsym tsym none .default none true hf
    rw [queryPair_of hrq] at h
    split at h
    · split at h
      · split at h <;> cases h
      · rw [if_pos rfl] at h
        unfold table at h
        split at h
        · cases h
        · rename_i l hl
          cases h
          intro x hx
          obtain ⟨r, _, rfl⟩ := List.mem_map.mp hx
          rfl
    · split at h <;> cases h
  · rw [C144_freq c api freq fsym tsym none .default none true (by push Not at hf; exact hf)] at h
    cases h

/-- C144: the history of each pair is asked for once, in the order of the pairs. In the table of a field there is, for each pair for which data was
obtained, a column with its values, and no other; the lines are the dates for which there are values. The grand aggregate has
the columns of all fields, the raw aggregate all columns of the histories, and the raw data are the histories. -/
theorem C144_aggr (c : Client) (api : Api δ K) (pairs : List (Str × Str)) (flds : List Str) (inclRaw inclRawAggr inclGrand : Bool) (freq : Option Str)
    (e : Option Str) (limit : Limit) (toTs : Option Val) (tab : Str × Str → Option (Table K))
    (hq : ∀ p ∈ pairs, (queryPair c api (freq.getD "day".toList) (some p.1) (some p.2)).1 = .ok (tab p))
    (hsome : ∃ p ∈ pairs, ∃ t, tab p = some t) (hdates : ∀ p ∈ pairs, ∀ t, tab p = some t → (t.map Prod.fst).Nodup)
    (hslash : ∀ p ∈ pairs, '/' ∉ p.1 ∧ '/' ∉ p.2) (hne : flds ≠ [])
    (hflds : ∀ f ∈ flds, f ∈ ["open".toList, "close".toList, "high".toList, "low".toList, "volumefrom".toList, "volumeto".toList]) :
    ∃ r, aggrQuery c api pairs (some flds) inclRaw inclRawAggr inclGrand freq e limit toTs =
      (.ok r, pairs.flatMap fun p => (queryPair c api (freq.getD "day".toList) (some p.1) (some p.2)).2) ∧
    (∀ f, (∃ fr, dictGet r.aggr f = some fr) ↔ f ∈ flds) ∧
    (∀ f fr, dictGet r.aggr f = some fr →
      (∀ d, d ∈ fr.index ↔ ∃ p ∈ pairs, ∃ t, tab p = some t ∧ d ∈ t.map Prod.fst) ∧ fr.index.Nodup ∧ (fr.cols.map Prod.fst).Nodup ∧
      (∀ n, n ∈ fr.cols.map Prod.fst ↔ ∃ p ∈ pairs, (∃ t, tab p = some t) ∧ n = (f, p.1 ++ '/' :: p.2)) ∧
      ∀ p ∈ pairs, ∀ t, tab p = some t → ∃ col, ((f, p.1 ++ '/' :: p.2), col) ∈ fr.cols ∧ Shows t f col) ∧
    (inclGrand = false → r.gaggr = none) ∧
    (inclGrand = true → ∃ g, r.gaggr = some g ∧ (∀ d, d ∈ g.index ↔ ∃ p ∈ pairs, ∃ t, tab p = some t ∧ d ∈ t.map Prod.fst) ∧
      ∀ x, x ∈ g.cols ↔ ∃ f fr, dictGet r.aggr f = some fr ∧ x ∈ fr.cols) ∧
    (inclRaw = false → r.raw = none) ∧
    (inclRaw = true → ∃ raw, r.raw = some raw ∧ (∀ n, n ∈ raw.map Prod.fst ↔ ∃ p ∈ pairs, n = p.1 ++ '/' :: p.2) ∧
      ∀ p ∈ pairs, dictGet raw (p.1 ++ '/' :: p.2) = some (tab p)) ∧
    (inclRawAggr = false → r.rawaggr = none) ∧
    (inclRawAggr = true → ∃ ra, r.rawaggr = some ra ∧ (∀ d, d ∈ ra.index ↔ ∃ p ∈ pairs, ∃ t, tab p = some t ∧ d ∈ t.map Prod.fst) ∧
      (∀ n f col, ((n, f), col) ∈ ra.cols → f ∈ fields ∧ ∃ p ∈ pairs, ∃ t, tab p = some t ∧ n = p.1 ++ '/' :: p.2 ∧ Shows t f col) ∧
      (∀ p ∈ pairs, ∀ t, tab p = some t → ∀ f ∈ fields, ∃ col, ((p.1 ++ '/' :: p.2, f), col) ∈ ra.cols)) := by
  obtain ⟨raw, hraw⟩ : ∃ raw, raw = pairs.foldl (fun d p => dictSet d p (tab p)) [] := ⟨_, rfl⟩
  obtain ⟨rn, rm⟩ := foldl_dictSet (f := id) (g := tab) pairs [] List.nodup_nil (fun a _ b _ h => by rw [show a = b from h])
  simp only [id] at rn rm
  rw [← hraw] at rn rm
  have rmem : ∀ p o, (p, o) ∈ raw ↔ p ∈ pairs ∧ o = tab p := by
    intro p o
    rw [rm]
    constructor
    · rintro (⟨a, ha, h⟩ | ⟨h, _⟩)
      · cases h; exact ⟨ha, rfl⟩
      · cases h
    · rintro ⟨h1, h2⟩
      exact Or.inl ⟨p, h1, by rw [h2]⟩
  obtain ⟨named, hnamed⟩ : ∃ named, named = raw.foldl (fun d kv => dictSet d (Data.pairFromPt kv.1) kv.2) [] := ⟨_, rfl⟩
  obtain ⟨nn, nm⟩ := foldl_dictSet (f := fun kv : (Str × Str) × Option (Table K) => Data.pairFromPt kv.1) (g := Prod.snd) raw [] List.nodup_nil (by
    rintro ⟨p, o⟩ h1 ⟨q, o'⟩ h2 h
    have h1 := (rmem p o).mp h1
    have h2 := (rmem q o').mp h2
    have := name_inj (hslash p h1.1) (hslash q h2.1) h
    dsimp only
    rw [h1.2, h2.2, this])
  rw [← hnamed] at nn nm
  have nmem : ∀ n o, (n, o) ∈ named ↔ ∃ p ∈ pairs, n = p.1 ++ '/' :: p.2 ∧ o = tab p := by
    intro n o
    rw [nm]
    constructor
    · rintro (⟨⟨p, o'⟩, ha, h⟩ | ⟨h, _⟩)
      · cases h
        obtain ⟨h1, h2⟩ := (rmem p o').mp ha
        exact ⟨p, h1, rfl, h2⟩
      · cases h
    · rintro ⟨p, hp, h1, h2⟩
      refine Or.inl ⟨(p, tab p), (rmem p _).mpr ⟨hp, rfl⟩, ?_⟩
      rw [h1, h2]
      rfl
  obtain ⟨p0, hp0, t0, ht0⟩ := hsome
  have c1 := concat_of (d := raw) ⟨p0, t0, (rmem _ _).mpr ⟨hp0, ht0.symm⟩⟩
  have c2 := concat_of (d := named) ⟨_, t0, (nmem _ _).mpr ⟨p0, hp0, rfl, ht0.symm⟩⟩
  obtain ⟨idx, hidx⟩ : ∃ idx, idx = dates (present raw) := ⟨_, rfl⟩
  rw [← hidx] at c1
  have imem : ∀ d, d ∈ idx ↔ ∃ p ∈ pairs, ∃ t, tab p = some t ∧ d ∈ t.map Prod.fst := by
    intro d
    rw [hidx, mem_dates]
    constructor
    · rintro ⟨p, t, h1, h2⟩
      obtain ⟨h3, h4⟩ := (rmem _ _).mp h1
      exact ⟨p, h3, t, h4.symm, h2⟩
    · rintro ⟨p, h1, t, h2, h3⟩
      exact ⟨p, t, (rmem _ _).mpr ⟨h1, h2.symm⟩, h3⟩
  have ind : idx.Nodup := by rw [hidx]; exact List.nodup_dedup _
  obtain ⟨df, hdf⟩ : ∃ df : Frame ((Str × Str) × Str) K,
    df = ⟨idx, (present raw).flatMap fun kv => fields.map fun fd => ((kv.1, fd), cell kv.2 fd)⟩ := ⟨_, rfl⟩
  have hshow : ∀ p ∈ pairs, ∀ t, tab p = some t → ∀ f, Shows t f (cell t f) := by
    intro p hp t ht f d v
    have hl := queryPair_lines (t := t) (by rw [hq p hp, ht])
    refine cell_spec (hdates p hp t ht) fun l hl' => ?_
    rw [hl l hl']
    decide +kernel
  have hre : ∀ f ∈ flds, ∃ cols, reformat df f = .ok ⟨idx, cols⟩ ∧ (cols.map Prod.fst).Nodup ∧
      (∀ n, n ∈ cols.map Prod.fst ↔ ∃ p ∈ pairs, (∃ t, tab p = some t) ∧ n = (f, p.1 ++ '/' :: p.2)) ∧
      ∀ p ∈ pairs, ∀ t, tab p = some t → ∃ col, ((f, p.1 ++ '/' :: p.2), col) ∈ cols ∧ Shows t f col := by
    intro f hf
    obtain ⟨cols, h1, ps, h2, h3, h4, h5⟩ := reformat_of rn (idx := idx) (hflds f hf)
    rw [← hdf] at h1
    have h3' : ∀ p, p ∈ ps ↔ p ∈ pairs ∧ ∃ t, tab p = some t := by
      intro p
      rw [h3]
      constructor
      · rintro ⟨t, ht⟩
        obtain ⟨a, b⟩ := (rmem _ _).mp ht
        exact ⟨a, t, b.symm⟩
      · rintro ⟨a, t, b⟩
        exact ⟨t, (rmem _ _).mpr ⟨a, b.symm⟩⟩
    refine ⟨cols, h1, ?_, ?_, ?_⟩
    · rw [h4]
      refine List.Nodup.map_on ?_ h2
      intro a ha b hb h
      simp only [Prod.mk.injEq, true_and] at h
      exact name_inj (hslash a ((h3' a).mp ha).1) (hslash b ((h3' b).mp hb).1) h
    · intro n
      rw [h4, List.mem_map]
      constructor
      · rintro ⟨p, hp, h⟩
        exact ⟨p, ((h3' p).mp hp).1, ((h3' p).mp hp).2, h.symm⟩
      · rintro ⟨p, hp, ht, h⟩
        exact ⟨p, (h3' p).mpr ⟨hp, ht⟩, h.symm⟩
    · intro p hp t ht
      exact ⟨cell t f, h5 p t ((rmem _ _).mpr ⟨hp, ht.symm⟩), hshow p hp t ht f⟩
  obtain ⟨G, hG⟩ : ∃ G : Str → List ((Str × Str) × (Int → Option K)), ∀ f ∈ flds, reformat df f = .ok ⟨idx, G f⟩ := by
    classical
    refine ⟨fun f => if h : f ∈ flds then (hre f h).choose else [], fun f hf => ?_⟩
    simp only [dif_pos hf]
    exact (hre f hf).choose_spec.1
  have hG2 : ∀ f ∈ flds, ((G f).map Prod.fst).Nodup ∧
      (∀ n, n ∈ (G f).map Prod.fst ↔ ∃ p ∈ pairs, (∃ t, tab p = some t) ∧ n = (f, p.1 ++ '/' :: p.2)) ∧
      ∀ p ∈ pairs, ∀ t, tab p = some t → ∃ col, ((f, p.1 ++ '/' :: p.2), col) ∈ G f ∧ Shows t f col := by
    intro f hf
    obtain ⟨cols, h1, h2⟩ := hre f hf
    rw [hG f hf] at h1
    cases h1
    exact h2
  have hM : flds.mapM (fun f => (reformat df f).map fun r => (f, r)) = (.ok (flds.map fun f => (f, (⟨idx, G f⟩ : Frame (Str × Str) K))) : Py _) := by
    refine mapM_all fun f hf => ?_
    rw [hG f hf]
    rfl
  obtain ⟨ag, hag⟩ : ∃ ag, ag = (flds.map fun f => (f, (⟨idx, G f⟩ : Frame (Str × Str) K))).foldl (fun d kv => dictSet d kv.1 kv.2) [] := ⟨_, rfl⟩
  have ag2 := foldl_dictSet (f := fun f : Str => f) (g := fun f => (⟨idx, G f⟩ : Frame (Str × Str) K)) flds [] List.nodup_nil (fun a _ b _ h => by rw [h])
  rw [List.foldl_map] at hag
  rw [← hag] at ag2
  obtain ⟨an, am⟩ := ag2
  have aget : ∀ f fr, dictGet ag f = some fr ↔ f ∈ flds ∧ fr = ⟨idx, G f⟩ := by
    intro f fr
    have look : ∀ {d : List (Str × Frame (Str × Str) K)}, (d.map Prod.fst).Nodup → (dictGet d f = some fr ↔ (f, fr) ∈ d) := by
      intro d hd
      induction d with
      | nil => simp [dictGet]
      | cons x d ih =>
        obtain ⟨a, b⟩ := x
        rw [List.map_cons, List.nodup_cons] at hd
        by_cases ha : a = f
        · simp only [dictGet, if_pos ha, Option.some.injEq, List.mem_cons, Prod.mk.injEq]
          constructor
          · intro h; exact Or.inl ⟨ha.symm, h.symm⟩
          · rintro (h | h)
            · exact h.2.symm
            · exact absurd (List.mem_map.mpr ⟨_, h, ha.symm⟩) hd.1
        · simp only [dictGet, if_neg ha, List.mem_cons, Prod.mk.injEq]
          rw [ih hd.2]
          constructor
          · exact Or.inr
          · rintro (h | h)
            · exact absurd h.1.symm ha
            · exact h
    rw [look an, am]
    constructor
    · rintro (⟨a, ha, h⟩ | ⟨h, _⟩)
      · cases h; exact ⟨ha, rfl⟩
      · cases h
    · rintro ⟨h1, h2⟩
      exact Or.inl ⟨f, h1, by rw [h2]⟩
  have agne : ag ≠ [] := by
    obtain ⟨f, hf⟩ := List.exists_mem_of_ne_nil _ hne
    exact List.ne_nil_of_mem ((am (f, ⟨idx, G f⟩)).mpr (Or.inl ⟨f, hf, rfl⟩))
  have nget : ∀ p ∈ pairs, dictGet named (p.1 ++ '/' :: p.2) = some (tab p) := by
    intro p hp
    have hm := (nmem (p.1 ++ '/' :: p.2) (tab p)).mpr ⟨p, hp, rfl, rfl⟩
    clear nm nmem c2 hnamed
    induction named with
    | nil => cases hm
    | cons x d ih =>
      obtain ⟨a, b⟩ := x
      rw [List.map_cons, List.nodup_cons] at nn
      unfold dictGet
      rcases List.mem_cons.mp hm with h | h
      · cases h; rw [if_pos rfl]
      · rw [if_neg, ih nn.2 h]
        intro e
        exact nn.1 (List.mem_map.mpr ⟨_, h, e.symm⟩)
  refine ⟨⟨if inclGrand then some ⟨idx, ag.flatMap fun kv => kv.2.cols⟩ else none, ag, if inclRawAggr then some ⟨dates (present named),
      (present named).flatMap fun kv => fields.map fun fd => ((kv.1, fd), cell kv.2 fd)⟩ else none, if inclRaw then some named else none⟩,
    ?_, ?_, ?_, ?_, ?_, ?_, ?_, ?_, ?_⟩
  · unfold aggrQuery
    dsimp only
    rw [queryAll_of pairs [] hq, ← hraw]
    dsimp only
    rw [Py.ok_bind, c1, Py.ok_bind, ← hnamed, c2, Py.ok_bind, Option.getD_some, ← hdf, hM, Py.ok_bind, List.foldl_map, ← hag, if_neg (fun h => agne h.2), hdf]
  · intro f
    constructor
    · rintro ⟨fr, h⟩; exact ((aget f fr).mp h).1
    · intro h; exact ⟨_, (aget f _).mpr ⟨h, rfl⟩⟩
  · intro f fr h
    obtain ⟨hf, rfl⟩ := (aget f fr).mp h
    obtain ⟨a, b, c⟩ := hG2 f hf
    exact ⟨imem, ind, a, b, c⟩
  · rintro rfl; rfl
  · rintro rfl
    refine ⟨_, rfl, imem, fun x => ?_⟩
    rw [List.mem_flatMap]
    constructor
    · rintro ⟨⟨f, fr⟩, h1, h2⟩
      refine ⟨f, fr, ?_, h2⟩
      rcases (am _).mp h1 with ⟨a, ha, h⟩ | ⟨h, _⟩
      · cases h; exact (aget _ _).mpr ⟨ha, rfl⟩
      · cases h
    · rintro ⟨f, fr, h1, h2⟩
      obtain ⟨hf, rfl⟩ := (aget f fr).mp h1
      exact ⟨(f, ⟨idx, G f⟩), (am _).mpr (Or.inl ⟨f, hf, rfl⟩), h2⟩
  · rintro rfl; rfl
  · rintro rfl
    refine ⟨_, rfl, fun n => ?_, nget⟩
    rw [List.mem_map]
    constructor
    · rintro ⟨⟨a, o⟩, h, rfl⟩
      obtain ⟨p, hp, h1, _⟩ := (nmem _ _).mp h
      exact ⟨p, hp, h1⟩
    · rintro ⟨p, hp, h⟩
      exact ⟨(n, tab p), (nmem _ _).mpr ⟨p, hp, h, rfl⟩, rfl⟩
  · rintro rfl; rfl
  · rintro rfl
    refine ⟨_, rfl, fun d => ?_, ?_, ?_⟩
    · dsimp only
      rw [mem_dates]
      constructor
      · rintro ⟨n, t, h1, h2⟩
        obtain ⟨p, hp, _, h4⟩ := (nmem _ _).mp h1
        exact ⟨p, hp, t, h4.symm, h2⟩
      · rintro ⟨p, hp, t, h1, h2⟩
        exact ⟨_, t, (nmem _ _).mpr ⟨p, hp, rfl, h1.symm⟩, h2⟩
    · intro n f col h
      obtain ⟨h1, t, h2, h3⟩ := mem_cols.mp h
      obtain ⟨p, hp, h4, h5⟩ := (nmem _ _).mp (mem_present.mp h2)
      refine ⟨h1, p, hp, t, h5.symm, h4, ?_⟩
      rw [h3]
      exact hshow p hp t h5.symm f
    · intro p hp t ht f hf
      exact ⟨_, mem_cols.mpr ⟨hf, t, mem_present.mpr ((nmem _ _).mpr ⟨p, hp, rfl, ht.symm⟩), rfl⟩⟩

/-- C144 fails for the arguments of an aggregated query that should be passed on: exchange, limit and last date have no effect. -/
theorem C144_passed_violated (c : Client) (api : Api δ K) (pairs : List (Str × Str)) (flds : Option (List Str)) (x y z : Bool) (freq : Option Str)
    (e e' : Option Str) (limit limit' : Limit) (toTs toTs' : Option Val) :
    aggrQuery c api pairs flds x y z freq e limit toTs = aggrQuery c api pairs flds x y z freq e' limit' toTs' := rfl

/-- C144: an aggregated query without fields is one for closing prices, and daily. -/
theorem C144_defaults (c : Client) (api : Api δ K) (pairs : List (Str × Str)) (x y z : Bool) :
    aggrQuery c api pairs none x y z none = aggrQuery c api pairs (some ["close".toList]) x y z (some "day".toList) := rfl

/-- C144 fails for aggregated queries without data for any pair: where no exceptions are asked for, the single queries give none, but the aggregated
one raises `ValueError`. -/
theorem C144_none_violated (c : Client) (api : Api δ K) (pairs : List (Str × Str)) (flds : Option (List Str)) (x y z : Bool) (freq : Option Str)
    (h : ∀ p ∈ pairs, (queryPair c api (freq.getD "day".toList) (some p.1) (some p.2)).1 = .ok none) :
    (aggrQuery c api pairs flds x y z freq).1 = .error .value := by
  have hp : present (pairs.foldl (fun d p => dictSet d p (none : Option (Table K))) []) = [] := by
    rw [List.eq_nil_iff_forall_not_mem]
    rintro ⟨k, t⟩ hm
    rw [mem_present] at hm
    obtain ⟨_, rm⟩ := foldl_dictSet (f := fun p : Str × Str => p) (g := fun _ => (none : Option (Table K))) pairs [] List.nodup_nil (fun _ _ _ _ _ => rfl)
    rcases (rm _).mp hm with ⟨a, _, e⟩ | ⟨e, _⟩
    · cases e
    · cases e
  unfold aggrQuery
  dsimp only
  rw [queryAll_of pairs [] h]
  dsimp only
  rw [Py.ok_bind]
  have : concat (pairs.foldl (fun d p => dictSet d p (none : Option (Table K))) []) = .error .value := by
    unfold concat
    rw [hp]
  rw [this]
  rfl

/-- C144: a query that raises ends the aggregated one, with the same exception; later pairs are not asked for. -/
theorem C144_raises (c : Client) (api : Api δ K) (before : List (Str × Str)) (p : Str × Str) (after : List (Str × Str)) (flds : Option (List Str))
    (x y z : Bool) (freq : Option Str) (er : Err)
    (hb : ∀ q ∈ before, ∃ t, (queryPair c api (freq.getD "day".toList) (some q.1) (some q.2)).1 = .ok t)
    (hp : (queryPair c api (freq.getD "day".toList) (some p.1) (some p.2)).1 = .error er) :
    aggrQuery c api (before ++ p :: after) flds x y z freq =
      (.error er, (before ++ [p]).flatMap fun q => (queryPair c api (freq.getD "day".toList) (some q.1) (some q.2)).2) := by
  have key : ∀ d, queryAll c api (freq.getD "day".toList) d (before ++ p :: after) =
      (.error er, (before ++ [p]).flatMap fun q => (queryPair c api (freq.getD "day".toList) (some q.1) (some q.2)).2) := by
    induction before with
    | nil =>
      intro d
      rw [List.nil_append]
      unfold queryAll
      split
      · rename_i hh
        rw [hh] at hp
        cases hp
        rw [List.nil_append, List.flatMap_cons, List.flatMap_nil, List.append_nil, hh]
      · rename_i hh; rw [hh] at hp; cases hp
    | cons b bs ih =>
      intro d
      obtain ⟨t, ht⟩ := hb b List.mem_cons_self
      rw [List.cons_append]
      unfold queryAll
      split
      · rename_i hh; rw [hh] at ht; cases ht
      · rename_i hh
        dsimp only
        rw [ih (fun q hq => hb q (List.mem_cons_of_mem _ hq))]
        rw [List.cons_append, List.flatMap_cons, hh]
  unfold aggrQuery
  dsimp only
  rw [key]
  rfl

/-- C144: an unknown field raises `KeyError`, after all pairs have been asked for. -/
theorem C144_field (c : Client) (api : Api δ K) (pairs : List (Str × Str)) (f : Str) (x y z : Bool) (freq : Option Str) (tab : Str × Str → Option (Table K))
    (hq : ∀ p ∈ pairs, (queryPair c api (freq.getD "day".toList) (some p.1) (some p.2)).1 = .ok (tab p))
    (hsome : ∃ p ∈ pairs, ∃ t, tab p = some t) (hslash : ∀ p ∈ pairs, '/' ∉ p.1 ∧ '/' ∉ p.2)
    (hf : f ∉ ["open".toList, "close".toList, "high".toList, "low".toList, "volumefrom".toList, "volumeto".toList]) :
    aggrQuery c api pairs (some [f]) x y z freq =
      (.error .key, pairs.flatMap fun p => (queryPair c api (freq.getD "day".toList) (some p.1) (some p.2)).2) := by
  obtain ⟨raw, hraw⟩ : ∃ raw, raw = pairs.foldl (fun d p => dictSet d p (tab p)) [] := ⟨_, rfl⟩
  obtain ⟨rn, rm⟩ := foldl_dictSet (f := id) (g := tab) pairs [] List.nodup_nil (fun a _ b _ h => by rw [show a = b from h])
  simp only [id] at rn rm
  rw [← hraw] at rn rm
  have rmem : ∀ p o, (p, o) ∈ raw → p ∈ pairs ∧ o = tab p := by
    intro p o h
    rcases (rm _).mp h with ⟨a, ha, h⟩ | ⟨h, _⟩
    · cases h; exact ⟨ha, rfl⟩
    · cases h
  obtain ⟨named, hnamed⟩ : ∃ named, named = raw.foldl (fun d kv => dictSet d (Data.pairFromPt kv.1) kv.2) [] := ⟨_, rfl⟩
  obtain ⟨_, nm⟩ := foldl_dictSet (f := fun kv : (Str × Str) × Option (Table K) => Data.pairFromPt kv.1) (g := Prod.snd) raw [] List.nodup_nil (by
    rintro ⟨p, o⟩ h1 ⟨q, o'⟩ h2 h
    have h1 := rmem p o h1
    have h2 := rmem q o' h2
    have := name_inj (hslash p h1.1) (hslash q h2.1) h
    dsimp only
    rw [h1.2, h2.2, this])
  rw [← hnamed] at nm
  obtain ⟨p0, hp0, t0, ht0⟩ := hsome
  have m0 : (p0, some t0) ∈ raw := (rm _).mpr (Or.inl ⟨p0, hp0, by rw [ht0]⟩)
  have c1 := concat_of (d := raw) ⟨p0, t0, m0⟩
  have c2 := concat_of (d := named) ⟨Data.pairFromPt p0, t0, (nm _).mpr (Or.inl ⟨_, m0, rfl⟩)⟩
  unfold aggrQuery
  dsimp only
  rw [queryAll_of pairs [] hq, ← hraw]
  dsimp only
  rw [Py.ok_bind, c1, Py.ok_bind, ← hnamed, c2, Py.ok_bind, Option.getD_some]
  have hre : reformat (⟨dates (present raw), (present raw).flatMap fun kv => fields.map fun fd => ((kv.1, fd), cell kv.2 fd)⟩ : Frame ((Str × Str) × Str) K) f =
      .error .key := by
    obtain ⟨cs, hcs⟩ : ∃ cs : List (((Str × Str) × Str) × (Int → Option K)),
      cs = (present raw).flatMap fun kv => fields.map fun fd => ((kv.1, fd), cell kv.2 fd) := ⟨_, rfl⟩
    rw [← hcs]
    obtain ⟨F1, _⟩ := Prop.DataTools.C123_fields (cs.map fun c => (c.1.1.1, c.1.1.2, c.1.2))
    have h0 : p0 ∈ (Data.pairsFields (cs.map fun c => (c.1.1.1, c.1.1.2, c.1.2))).1 := by
      refine (F1 p0.1 p0.2).mpr ⟨"open".toList, List.mem_map.mpr ⟨((p0, "open".toList), cell t0 "open".toList), ?_, rfl⟩⟩
      rw [hcs, mem_cols]
      exact ⟨List.mem_cons_self, t0, mem_present.mpr m0, rfl⟩
    unfold reformat
    dsimp only
    obtain ⟨q, qs, hqs⟩ := List.exists_cons_of_ne_nil (List.ne_nil_of_mem h0)
    rw [hqs, List.mapM_cons]
    have : cs.find? (fun c => c.1 = (q, f)) = none := by
      rw [List.find?_eq_none]
      rintro ⟨⟨k, fd⟩, col⟩ hc
      rw [hcs, mem_cols] at hc
      simp only [decide_eq_true_eq, Prod.mk.injEq, not_and]
      rintro _ rfl
      exact hf hc.1
    rw [this]
    rfl
  rw [List.mapM_cons, hre]
  rfl

end Tables

section Examples

/-- A service for examples: `ETH` has two records, `BTC` one, other histories do not exist, and lists are always the same. -/
def sampleApi : Api Str Int := fun rq =>
  if rq.endpoint = "/data/all/coinlist".toList then ⟨true, false, some "ETH, BTC".toList, []⟩
  else if dictGet rq.params "fsym".toList = some (.str "ETH".toList) then ⟨true, false, none, [⟨1, 10, 11, 12, 9, 100, 1000⟩, ⟨2, 11, 12, 13, 10, 50, 600⟩]⟩
  else if dictGet rq.params "fsym".toList = some (.str "BTC".toList) then ⟨true, false, none, [⟨2, 30, 31, 32, 29, 5, 150⟩]⟩
  else if dictGet rq.params "fsym".toList = some (.str "NEW".toList) then ⟨true, false, none, []⟩
  else if dictGet rq.params "fsym".toList = some (.str "XXX".toList) then ⟨true, true, none, []⟩
  else ⟨false, false, none, []⟩

/-- A client with a key. -/
def sampleClient : Client := ⟨some "k123".toList, true⟩

/-- A client without key that raises no exceptions. -/
def quietClient : Client := ⟨none, false⟩

/-- C143: a request with key, and one without. -/
example : (query sampleClient sampleApi "/x".toList [("a".toList, some (.int 1)), ("b".toList, none)]).2 =
    [⟨"/x".toList, [("a".toList, .int 1), ("api_key".toList, .str "k123".toList)]⟩] ∧
    (query quietClient sampleApi "/x".toList [("a".toList, some (.int 1)), ("b".toList, none)]).2 = [⟨"/x".toList, [("a".toList, .int 1)]⟩] := by
  decide +kernel

/-- C143: no such endpoint exists; the exception is not the documented one. -/
example : (query sampleClient sampleApi "/x".toList []).1 = .error .attr :=
  (C143_failed_violated sampleClient sampleApi "/x".toList [] rfl (by intro rq h; cases h; decide +kernel)).1

/-- C143: a list is read, stored, and read again without a request. -/
example : (cacheXxx sampleClient [] "c".toList (queryList sampleClient sampleApi "/data/all/coinlist".toList) true true).2.2 =
    [("c".toList, some "ETH, BTC".toList)] ∧
    (cacheXxx sampleClient [("c".toList, some "ETH, BTC".toList)] "c".toList (queryList sampleClient sampleApi "/data/all/coinlist".toList)).2.1 = [] := by
  decide +kernel

/-- C143: with the method for the list, nothing is stored; and the quiet client does not even send the request. -/
example : (cacheList sampleClient sampleApi [] "c".toList "/data/all/coinlist".toList false true).2.2 = [] ∧
    (cacheList sampleClient sampleApi [] "c".toList "/data/all/coinlist".toList false true).2.1.length = 1 ∧
    (cacheList quietClient sampleApi [] "c".toList "/data/all/coinlist".toList true true).2 = ([], []) := by
  decide +kernel

/-- C144: the request for a history. -/
example : (queryPair sampleClient sampleApi "hour".toList (some "ETH".toList) (limit := .none) (e := some "Kraken".toList)).2 =
    [⟨"/data/v2/histohour".toList, [("fsym".toList, .str "ETH".toList), ("tsym".toList, .str "usd".toList), ("e".toList, .str "Kraken".toList),
      ("api_key".toList, .str "k123".toList)]⟩] := by
  decide +kernel

/-- The histories of the examples. -/
def sampleTab (p : Str × Str) : Option (Table Int) :=
  if p.1 = "ETH".toList then some [(1, fields.zip [10, 11, 12, 9, 100, 1000]), (2, fields.zip [11, 12, 13, 10, 50, 600])]
  else if p.1 = "BTC".toList then some [(2, fields.zip [30, 31, 32, 29, 5, 150])]
  else none

theorem sample_query : ∀ p ∈ [("ETH".toList, "USD".toList), ("BTC".toList, "USD".toList), ("XXX".toList, "USD".toList)],
    (queryPair quietClient sampleApi ((none : Option Str).getD "day".toList) (some p.1) (some p.2)).1 = .ok (sampleTab p) := by
  simp only [List.forall_mem_cons]
  refine ⟨?_, ?_, ?_, fun p hp => by cases hp⟩
  · rfl
  · rfl
  · rfl

/-- C144: the table of the closing prices for two pairs and one that does not exist: two columns, two dates. -/
example : ∃ r fr col, (aggrQuery quietClient sampleApi [("ETH".toList, "USD".toList), ("BTC".toList, "USD".toList), ("XXX".toList, "USD".toList)]
      (some ["close".toList])).1 = .ok r ∧ dictGet r.aggr "close".toList = some fr ∧ (∀ d, d ∈ fr.index ↔ d = 1 ∨ d = 2) ∧
    (∀ n, n ∈ fr.cols.map Prod.fst ↔ n = ("close".toList, "ETH/USD".toList) ∨ n = ("close".toList, "BTC/USD".toList)) ∧
    (("close".toList, "BTC/USD".toList), col) ∈ fr.cols ∧ col 1 = none ∧ col 2 = some 31 := by
  obtain ⟨r, h1, h2, h3, _⟩ := C144_aggr quietClient sampleApi [("ETH".toList, "USD".toList), ("BTC".toList, "USD".toList), ("XXX".toList, "USD".toList)]
    ["close".toList] true true true none none .default none sampleTab sample_query ⟨_, List.mem_cons_self, _, rfl⟩
    (by
      intro p hp t ht
      simp only [List.mem_cons, List.not_mem_nil, or_false] at hp
      rcases hp with rfl | rfl | rfl
      · cases ht; decide
      · cases ht; decide
      · cases ht)
    (by decide +kernel) (by simp) (by decide +kernel)
  obtain ⟨fr, hfr⟩ := (h2 "close".toList).mpr List.mem_cons_self
  obtain ⟨i1, i2, i3, i4, i5⟩ := h3 _ fr hfr
  obtain ⟨col, hc1, hc2⟩ := i5 ("BTC".toList, "USD".toList) (by simp) [(2, fields.zip [30, 31, 32, 29, 5, 150])] rfl
  refine ⟨r, fr, col, by rw [h1], hfr, ?_, ?_, hc1, ?_, ?_⟩
  · intro d
    rw [i1]
    constructor
    · rintro ⟨p, hp, t, ht, hd⟩
      simp only [List.mem_cons, List.not_mem_nil, or_false] at hp
      rcases hp with rfl | rfl | rfl
      · cases ht; simpa using hd
      · cases ht; right; simpa using hd
      · cases ht
    · intro h
      refine ⟨("ETH".toList, "USD".toList), List.mem_cons_self, _, rfl, ?_⟩
      simpa using h
  · intro n
    rw [i4]
    constructor
    · rintro ⟨p, hp, ⟨t, ht⟩, hn⟩
      simp only [List.mem_cons, List.not_mem_nil, or_false] at hp
      rcases hp with rfl | rfl | rfl
      · left; rw [hn]; rfl
      · right; rw [hn]; rfl
      · cases ht
    · rintro (rfl | rfl)
      · exact ⟨("ETH".toList, "USD".toList), by simp, ⟨_, rfl⟩, rfl⟩
      · exact ⟨("BTC".toList, "USD".toList), by simp, ⟨_, rfl⟩, rfl⟩
  · cases h : col 1 with
    | none => rfl
    | some v =>
      obtain ⟨l, hl, _⟩ := (hc2 1 v).mp h
      simp at hl
  · refine (hc2 2 31).mpr ⟨_, List.mem_cons_self, ?_⟩
    decide +kernel

/-- C144: histories without records, and data that is not wanted as a table, raise even with the quiet client. -/
example : (queryPair quietClient sampleApi "day".toList (some "NEW".toList)).1 = .error .key ∧
    (queryPair quietClient sampleApi "day".toList (some "ETH".toList) (aspandas := false)).1 = .error .type ∧
    (queryPair quietClient sampleApi "day".toList (some "XXX".toList)).1 = .ok none ∧
    (queryPair sampleClient sampleApi "day".toList (some "XXX".toList)).1 = .error runtimeError ∧
    (queryPair sampleClient sampleApi "week".toList (some "ETH".toList)) = (.error .value, []) := by
  exact ⟨rfl, rfl, rfl, rfl, rfl⟩

/-- C144: none of the pairs exists. -/
example : (aggrQuery quietClient sampleApi [("XXX".toList, "USD".toList)]).1 = .error .value :=
  C144_none_violated _ _ _ _ _ _ _ _ (by
    intro p hp
    rw [List.mem_singleton.mp hp]
    rfl)

end Examples

end CC0

end Carbon
