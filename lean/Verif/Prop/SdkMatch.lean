import Verif.Sdk.MatchRequests
import Verif.Prop.SdkRequests

/-!
# The requests of the SDK client about matches (C175)
-/

set_option linter.unusedSectionVars false

namespace Carbon.Sdk

section
variable {K α : Type} [Field K] [LinearOrder K] [FloorRing K]

/-- A method that can be called at once or asynchronously. At once, it posts `p` one time to `ep` of the synchronous interface and returns the
reply. Asynchronously, it posts the same to the asynchronous interface and returns the number of the request exactly if the server accepts it. By
default it is asynchronous if the client is. -/
def Both (c : Client) (net : Request (Params K) → Option (Resp α)) (f : Option Bool → Py (Request (Params K) × Called α)) (ep : Str)
    (p : Params K) : Prop :=
  (∀ q r, f (some true) = .ok (q, r) ↔ q = ⟨.post, address c "scall".toList ep, some p⟩ ∧ r = .resp (received (net q))) ∧
  (∀ q i, f (some false) = .ok (q, .reqid i) ↔ q = ⟨.post, address c "ascall".toList ep, some p⟩ ∧
    ∃ r b, net q = some r ∧ r.body = some b ∧ b.success = some true ∧ b.reqid = some i) ∧
  (c.syncdefault = false → f none = f (some false))

theorem both {c : Client} (hc : Neat c) (net : Request (Params K) → Option (Resp α)) {ep : Str} (h0 : ep ≠ [] ∧ ep.head? ≠ some '/')
    (p : Params K) : Both c net (fun s => call c net noParams ep (some p) none s) ep p := by
  refine ⟨?_, ?_, ?_⟩
  · intro q r
    unfold call
    have hk : callapi0 c (some true) = "scall".toList := rfl
    dsimp only
    rw [hk, call_url (by decide) (by decide) h0.1 h0.2, Py.ok_bind, if_pos rfl, req_eq hc net noParams (by decide) (by decide), Py.ok_bind]
    constructor
    · intro h
      obtain ⟨h1, h2⟩ := Prod.mk.inj (Except.ok.inj h)
      exact ⟨h1.symm, by rw [← h2, ← h1]⟩
    · rintro ⟨rfl, rfl⟩
      rfl
  · intro q i
    have h' := (C98_async hc net noParams h0 p).1 i
    constructor
    · intro h
      have hq : q = ⟨.post, address c "ascall".toList ep, some p⟩ := by
        have h2 := h
        unfold call at h2
        have hk : callapi0 c (some false) = "ascall".toList := rfl
        dsimp only at h2
        rw [hk, call_url (by decide) (by decide) h0.1 h0.2, Py.ok_bind, if_neg (by simp),
          req_eq hc net noParams (by decide) (by decide)] at h2
        dsimp only at h2
        rw [Py.bind_eq_ok] at h2
        obtain ⟨a, _, ha⟩ := h2
        exact (Prod.mk.inj (Except.ok.inj ha)).1.symm
      subst hq
      exact ⟨rfl, h'.mp h⟩
    · rintro ⟨rfl, h⟩
      exact h'.mpr h
  · intro hs
    dsimp only
    unfold call
    have hk : callapi0 c none = callapi0 c (some false) := by unfold callapi0; rw [Option.getD_none, hs]; rfl
    rw [hk]
    cases join (callapi0 c (some false)) ep with
    | error e => rfl
    | ok url => rw [Py.ok_bind, Py.ok_bind, if_neg (by simp), if_neg (by simp)]

/-- **C175** Asking for the actions of a match: the amount is a text that stands for the one given, the flag says `by target` exactly if the value
given counts as true, and the orders are those given, in their order and with their numbers as numbers. -/
theorem C175_actions {c : Client} (hc : Neat c) (net : Request (Params K) → Option (Resp α)) (fl : K → Str) (amount byTarget : Val K)
    (orders : List (Dict K)) :
    ∃ p s, Both c net (fun sync => getMatchActions c net fl amount byTarget orders sync) "get_match_actions".toList p ∧
      p.map Prod.fst = ["amountWei".toList, "tradeByTargetAmount".toList, "orders".toList] ∧
      dictGet p "amountWei".toList = some (.str s) ∧ Stands fl amount s ∧
      dictGet p "tradeByTargetAmount".toList = some (.bool byTarget.truthy) ∧ dictGet p "orders".toList = some (.dicts orders) := by
  refine ⟨matchActionsParams fl amount byTarget orders, amount.text fl, ?_, rfl, rfl, stands fl amount, rfl, rfl⟩
  have e : c2s "getMatchActions".toList = "get_match_actions".toList := by decide
  have h := both hc net (ep := "get_match_actions".toList) ⟨by decide, by decide⟩ (matchActionsParams fl amount byTarget orders)
  rw [← e] at h ⊢
  exact h

/-- **C175** Asking for the parameters of a match. -/
theorem C175_params {c : Client} (hc : Neat c) (net : Request (Params K) → Option (Resp α)) (fl : K → Str)
    (source target amount byTarget : Val K) :
    ∃ p, Both c net (fun sync => getMatchParams c net fl source target amount byTarget sync) "get_match_params".toList p ∧
      p.map Prod.fst = ["sourceToken".toList, "targetToken".toList, "amount".toList, "tradeByTargetAmount".toList] ∧
      (∀ kv ∈ [("sourceToken".toList, source), ("targetToken".toList, target), ("amount".toList, amount)],
        ∃ s, dictGet p kv.1 = some (.str s) ∧ Stands fl kv.2 s) ∧
      dictGet p "tradeByTargetAmount".toList = some (.bool byTarget.truthy) := by
  refine ⟨matchParamsParams fl source target amount byTarget, ?_, rfl, ?_, rfl⟩
  · have e : c2s "getMatchParams".toList = "get_match_params".toList := by decide
    have h := both hc net (ep := "get_match_params".toList) ⟨by decide, by decide⟩ (matchParamsParams fl source target amount byTarget)
    rw [← e] at h ⊢
    exact h
  · intro kv hkv
    simp only [List.mem_cons, List.not_mem_nil, or_false] at hkv
    rcases hkv with rfl | rfl | rfl
    · exact ⟨_, rfl, stands fl _⟩
    · exact ⟨_, rfl, stands fl _⟩
    · exact ⟨_, rfl, stands fl _⟩

/-- **C175** Asking for the trade of given actions: the actions are those given with texts in the place of numbers, from which the numbers can be
read; no actions are an empty list. -/
theorem C175_trade {c : Client} (hc : Neat c) (net : Request (Params K) → Option (Resp α)) (fl : K → Str) (source target byTarget : Val K)
    (actions : Option (List (Dict K))) :
    ∃ p l, Both c net (fun sync => getTradeDataFromActions c net fl source target byTarget actions sync) "get_trade_data_from_actions".toList p ∧
      p.map Prod.fst = ["sourceToken".toList, "targetToken".toList, "tradeByTargetAmount".toList, "actionsWei".toList] ∧
      (∀ kv ∈ [("sourceToken".toList, source), ("targetToken".toList, target)],
        ∃ s, dictGet p kv.1 = some (.str s) ∧ Stands fl kv.2 s) ∧
      dictGet p "tradeByTargetAmount".toList = some (.bool byTarget.truthy) ∧
      dictGet p "actionsWei".toList = some (.dicts l) ∧ List.Forall₂ SameEntries (actions.getD []) l := by
  refine ⟨fromActionsParams fl source target byTarget actions, (actions.getD []).map int2strd, ?_, rfl, ?_, rfl, rfl, ?_⟩
  · have e : c2s "getTradeDataFromActions".toList = "get_trade_data_from_actions".toList := by decide
    have h := both hc net (ep := "get_trade_data_from_actions".toList) ⟨by decide, by decide⟩
      (fromActionsParams fl source target byTarget actions)
    rw [← e] at h ⊢
    exact h
  · intro kv hkv
    simp only [List.mem_cons, List.not_mem_nil, or_false] at hkv
    rcases hkv with rfl | rfl
    · exact ⟨_, rfl, stands fl _⟩
    · exact ⟨_, rfl, stands fl _⟩
  · rw [List.forall₂_map_right_iff, List.forall₂_same]
    intro x _
    exact sameEntries x

/-- **C175** Different questions are different requests: if two calls for whole amounts post the same, then the amounts, the sense of the flags
and the orders are the same. -/
theorem C175_distinct {c : Client} (hc : Neat c) (net : Request (Params K) → Option (Resp α)) (fl : K → Str) {a a' : ℤ} {t t' : Val K}
    {o o' : List (Dict K)} {q : Request (Params K)} {r r' : Called α}
    (h : getMatchActions c net fl (.int a) t o (some true) = .ok (q, r))
    (h' : getMatchActions c net fl (.int a') t' o' (some true) = .ok (q, r')) : a = a' ∧ t.truthy = t'.truthy ∧ o = o' ∧ r = r' := by
  obtain ⟨p, s, hb, -, h1, h2, h3, h4⟩ := C175_actions hc net fl (.int a) t o
  obtain ⟨p', s', hb', -, h1', h2', h3', h4'⟩ := C175_actions hc net fl (.int a') t' o'
  obtain ⟨hq, hr⟩ := (hb.1 q r).mp h
  obtain ⟨hq', hr'⟩ := (hb'.1 q r').mp h'
  have hp : p = p' := by
    have := hq.symm.trans hq'
    injection this with _ _ this
    exact Option.some.inj this
  subst hp
  have e1 : s = s' := by
    have := h1.symm.trans h1'
    injection this with this
    injection this
  subst e1
  refine ⟨?_, ?_, ?_, hr.trans hr'.symm⟩
  · exact Option.some.inj ((h2.1 a rfl).symm.trans (h2'.1 a' rfl))
  · have := h3.symm.trans h3'
    injection this with this
    injection this
  · have := h4.symm.trans h4'
    injection this with this
    injection this

/-- A server that answers the questions about an endpoint at once, and asynchronously through the page of the number it gave. -/
structure Serves (c : Client) (net : Request (Params K) → Option (Resp α)) (ep : Str) (p : Params K) (answer : α) (number : Str) : Prop where
  now : net ⟨.post, address c "scall".toList ep, some p⟩ = some ⟨200, some { success := some true, data := some answer }⟩
  accepts : net ⟨.post, address c "ascall".toList ep, some p⟩ = some ⟨200, some { success := some true, reqid := some number }⟩
  later : net (resultOf c number) = some ⟨200, some { success := some true, data := some answer }⟩

/-- **C175** Asking asynchronously and fetching the result gives what asking at once gives, for each of the methods. -/
theorem C175_later {c : Client} (hc : Neat c) {net : Request (Params K) → Option (Resp α)}
    {f : Option Bool → Py (Request (Params K) × Called α)} {ep : Str} {p : Params K} (hf : Both c net f ep p) {answer : α} {number : Str}
    (h0 : number ≠ []) (h1 : number.head? ≠ some '/') (hs : Serves c net ep p answer number) :
    (∃ q r, f (some true) = .ok (q, .resp r) ∧ checkresult r = .ok answer) ∧
    ∃ q i q', f (some false) = .ok (q, .reqid i) ∧ result c net i = .ok (q', .value answer) := by
  constructor
  · refine ⟨_, received (net ⟨.post, address c "scall".toList ep, some p⟩), (hf.1 _ _).mpr ⟨rfl, rfl⟩, ?_⟩
    rw [hs.now]
    rfl
  · exact ⟨_, number, resultOf c number, (hf.2.1 _ _).mpr ⟨rfl, _, _, hs.accepts, rfl, rfl, rfl⟩,
      ((C146_result hc net h0 h1 hs.later rfl).1 _ _).mpr ⟨rfl, rfl, rfl⟩⟩

/-- **C175** fails for clients that are synchronous by default and calls that leave the choice to the client: the answer of the server is lost to
a `KeyError`. -/
theorem C175_default_violated {c : Client} (hc : Neat c) (hs : c.syncdefault = true) (net : Request (Params K) → Option (Resp α)) (fl : K → Str)
    (amount byTarget : Val K) (orders : List (Dict K)) {answer : α}
    (hnet : ∀ q, net q = some ⟨200, some { success := some true, data := some answer }⟩) :
    getMatchActions c net fl amount byTarget orders = .error .key ∧
    (∃ q r, getMatchActions c net fl amount byTarget orders (some true) = .ok (q, .resp r) ∧ checkresult r = .ok answer) := by
  have e : c2s "getMatchActions".toList = "get_match_actions".toList := by decide
  constructor
  · unfold getMatchActions
    rw [e]
    exact C98_default_violated hc hs net noParams ⟨by decide, by decide⟩ _ answer (hnet _)
  · obtain ⟨p, s, hb, -⟩ := C175_actions hc net fl amount byTarget orders
    refine ⟨_, received (net ⟨.post, address c "scall".toList "get_match_actions".toList, some p⟩), (hb.1 _ _).mpr ⟨rfl, rfl⟩, ?_⟩
    rw [hnet]
    rfl

/-- **C175** fails for a flag given as a text: every text but the empty one is sent as `by target`, also `"False"` and `"0"`. -/
theorem C175_flag_violated {c : Client} (hc : Neat c) (net : Request (Params K) → Option (Resp α)) (fl : K → Str) (amount : Val K)
    (orders : List (Dict K)) {t : Str} (ht : t ≠ []) {q : Request (Params K)} {r : Called α}
    (h : getMatchActions c net fl amount (.str t) orders (some true) = .ok (q, r)) :
    ∃ p, q.params = some p ∧ dictGet p "tradeByTargetAmount".toList = some (.bool true) := by
  obtain ⟨p, s, hb, -, -, -, h3, -⟩ := C175_actions hc net fl amount (.str t) orders
  have hq := ((hb.1 q r).mp h).1
  subst hq
  refine ⟨p, rfl, ?_⟩
  rw [h3]
  unfold Val.truthy
  simp [ht]

end

/-! ## Examples -/

namespace MatchRequests
open Carbon.Sdk.Requests

/-- An order to match with. -/
def someOrder : Dict ℚ := [("y".toList, .int 100), ("z".toList, .int 200)]

/-- A server with one answer and one number. -/
def oneAnswer (q : Request (Params ℚ)) : Option (Resp ℕ) :=
  if q.method = .post ∧ q.url = "http://localhost:3118/api/ascall/get_match_actions".toList then
    some ⟨200, some { success := some true, reqid := some "77".toList }⟩
  else some ⟨200, some { success := some true, data := some 5 }⟩

example := C175_actions localhost_neat (always 5) someText (.int 1000) (.int 1) [someOrder]
example := C175_params localhost_neat (always 5) someText (.str "0xa".toList) (.str "0xb".toList) (.float (3 / 2)) (.int 0)
example := C175_trade localhost_neat (always 5) someText (.str "0xa".toList) (.str "0xb".toList) (.int 0) (some [action])

theorem asked : getMatchActions localhost (always 5) someText (.int 1000) (.str "False".toList) [someOrder] (some true) =
    .ok (⟨.post, "http://localhost:3118/api/scall/get_match_actions".toList, some [("amountWei".toList, .str "1000".toList),
      ("tradeByTargetAmount".toList, .bool true), ("orders".toList, .dicts [someOrder])]⟩,
      .resp ⟨200, some { success := some true, data := some 5 }⟩) := by decide +kernel

example := C175_distinct localhost_neat (always 5) someText asked asked
example := C175_flag_violated localhost_neat (always 5) someText (.int 1000) [someOrder] (by decide) asked

example : getMatchActions { localhost with syncdefault := true } (always 5) someText (.int 1000) (.int 1) [someOrder] = .error .key :=
  (C175_default_violated (c := { localhost with syncdefault := true }) ⟨localhost_neat.url, localhost_neat.urlEnd, localhost_neat.api,
    localhost_neat.apiHead, localhost_neat.apiEnd⟩ rfl (always 5) someText (.int 1000) (.int 1) [someOrder] (answer := 5) (fun _ => rfl)).1

example : ∃ q i q', getMatchActions localhost oneAnswer someText (.int 1000) (.int 1) [someOrder] (some false) = .ok (q, .reqid i) ∧
    result localhost oneAnswer i = .ok (q', .value 5) := by
  have e : c2s "getMatchActions".toList = "get_match_actions".toList := by decide
  have h := both localhost_neat oneAnswer (ep := "get_match_actions".toList) ⟨by decide, by decide⟩
    (matchActionsParams someText (.int 1000) (.int 1) [someOrder])
  have hs : Serves localhost oneAnswer "get_match_actions".toList (matchActionsParams someText (.int 1000) (.int 1) [someOrder]) 5
      "77".toList := ⟨by decide +kernel, by decide +kernel, by decide +kernel⟩
  have := (C175_later localhost_neat h (by decide) (by decide) hs).2
  unfold getMatchActions
  rw [e]
  exact this

end MatchRequests

end Carbon.Sdk
