import Verif.Prop.AddingOrder

/-!
# Adding strategies in another order, with the fast router (C178)
-/

set_option linter.unusedSectionVars false

namespace Carbon.FastRouter

section
variable {K : Type} [Field K] [LinearOrder K] [IsStrictOrderedRing K]

/-- What the loop takes from and gives to each order depends on the quotes and their orders, not on where the orders are listed. -/
theorem loop_listing {trade : K → Curve K → Py (FRate K)} {orders orders' : List (Curve K)} {qs qs' : List (FQuote K)}
    (h : List.Forall₂ (fun q q' => q.rate = q'.rate ∧ orders[q.index]? = orders'[q'.index]?) qs qs') : ∀ {x : K} {acts acts' : List (Action K)},
    loop trade orders x qs = .ok acts → loop trade orders' x qs' = .ok acts' →
      acts.map (fun a => (a.input, a.output)) = acts'.map (fun a => (a.input, a.output)) := by
  induction h with
  | nil =>
    intro x acts acts' h1 h2
    cases h1
    cases h2
    rfl
  | @cons q q' qs qs' hq _ ih =>
    intro x acts acts' h1 h2
    obtain ⟨e1, e2⟩ := hq
    unfold loop at h1 h2
    rw [← e1] at h2
    split_ifs at h1 h2
    · rw [Py.bind_eq_ok] at h1 h2
      obtain ⟨l, hl, h1⟩ := h1
      obtain ⟨l', hl', h2⟩ := h2
      cases h1
      cases h2
      rw [List.map_cons, List.map_cons, ih hl hl']
    · exact ih h1 h2
    · cases h1
      cases h2
      rfl
    · exact ih h1 h2
    · unfold lookup at h1 h2
      rw [← e2] at h2
      cases ho : orders[q.index]? with
      | none => rw [ho] at h1; cases h1
      | some o =>
        rw [ho] at h1 h2
        simp only [Py.ok_bind] at h1 h2
        cases ht : trade x o with
        | error e => rw [ht] at h1; cases h1
        | ok r =>
          rw [ht] at h1 h2
          cases h1
          cases h2
          rfl
    · exact ih h1 h2

/-- Orders that can be told from each other by what they quote. -/
theorem perm_match {trade : K → Curve K → Py (FRate K)} {cmp : FQuote K → FQuote K → Int} {R : FRate K → FRate K → Prop} {x : K}
    {f : Curve K → FRate K} {cs cs' : List (Curve K)} (hp : cs.Perm cs') (hf : ∀ o ∈ cs, trade |x| o = .ok (f o))
    (hin : ∀ o ∈ cs, 0 < (f o).input)
    (hsort : ∀ l : List (FQuote K), (∀ q ∈ l, 0 < q.rate.input) → (l.insertionSort fun a b => cmp a b ≤ 0).Pairwise fun a b => R a.rate b.rate)
    (hR : ∀ c ∈ cs, ∀ d ∈ cs, R (f c) (f d) → R (f d) (f c) → c = d) {acts acts' : List (Action K)}
    (h : matchAmount trade cmp cs x = .ok acts) (h' : matchAmount trade cmp cs' x = .ok acts') :
    acts.map (fun a => (a.input, a.output)) = acts'.map (fun a => (a.input, a.output)) := by
  have key : ∀ ds : List (Curve K), ds.Perm cs → ∀ as, matchAmount trade cmp ds x = .ok as →
      ∃ qs as', loop trade ds |x| qs = .ok as' ∧ as.map (fun a => (a.input, a.output)) = as'.map (fun a => (a.input, a.output)) ∧
        ∃ l : List (Curve K), l.Perm cs ∧ l.Pairwise (fun a b => R (f a) (f b)) ∧
          List.Forall₂ (fun (q : FQuote K) c => q.rate = f c ∧ ds[q.index]? = some c) qs l := by
    intro ds hd as ha
    have hfd : ∀ o ∈ ds, trade |x| o = .ok (f o) := fun o ho => hf o (hd.subset ho)
    unfold matchAmount at ha
    rw [quotes_eq hfd] at ha
    simp only [Py.ok_bind] at ha
    obtain ⟨as', hl, he, _⟩ := matchQuotes_loop ha
    refine ⟨_, as', hl, ?_, ?_⟩
    · have := congrArg (List.map fun t : Nat × K × K => t.2) he
      simpa [List.map_map, Function.comp_def] using this
    · set l0 := ds.zipIdx.map fun p => (⟨p.2, f p.1⟩ : FQuote K) with hl0
      set qs := l0.insertionSort (fun a b => cmp a b ≤ 0) with hqs
      have hperm : qs.Perm l0 := List.perm_insertionSort _ _
      have hQ : QuotesFor trade |x| ds qs := ⟨l0, quotes_eq hfd, hperm⟩
      have hmem := fun q hq => qf_mem hfd hQ (q := q) hq
      have hl0in : ∀ q ∈ l0, 0 < q.rate.input := by
        intro q hq
        obtain ⟨o, ho, hr⟩ := hmem q (hperm.symm.subset hq)
        rw [hr]
        exact hin o (hd.subset (List.mem_of_getElem? ho))
      have hpw := hsort l0 hl0in
      rw [← hqs] at hpw
      have hex : ∃ l : List (Curve K), qs.map (fun q => ds[q.index]?) = l.map some := by
        clear_value qs
        clear hpw hQ hqs hperm hl ha
        induction qs with
        | nil => exact ⟨[], rfl⟩
        | cons q qs ih =>
          obtain ⟨l, hl⟩ := ih fun q hq => hmem q (List.mem_cons_of_mem _ hq)
          obtain ⟨o, ho, _⟩ := hmem q List.mem_cons_self
          exact ⟨o :: l, by rw [List.map_cons, List.map_cons, ho, hl]⟩
      obtain ⟨l, hl'⟩ := hex
      have hfa : List.Forall₂ (fun (q : FQuote K) c => q.rate = f c ∧ ds[q.index]? = some c) qs l := by
        clear_value qs
        clear hpw hQ hqs hperm hl ha
        induction qs generalizing l with
        | nil =>
          cases l with
          | nil => exact .nil
          | cons c l => simp at hl'
        | cons q qs ih =>
          cases l with
          | nil => simp at hl'
          | cons c l =>
            rw [List.map_cons, List.map_cons, List.cons.injEq] at hl'
            obtain ⟨o, ho, hr⟩ := hmem q List.mem_cons_self
            rw [ho] at hl'
            have e := Option.some.inj hl'.1
            subst e
            exact .cons ⟨hr, ho⟩ (ih (fun q hq => hmem q (List.mem_cons_of_mem _ hq)) l hl'.2)
      refine ⟨l, ?_, ?_, hfa⟩
      · have h1 : (l.map some).Perm (l0.map fun q => ds[q.index]?) := by
          rw [← hl']
          exact hperm.map _
        have h2 : (l0.map fun q => ds[q.index]?) = ds.map some := by
          rw [hl0, List.map_map]
          apply List.ext_getElem
          · simp
          · intro i h1 h2
            simp at h1 h2 ⊢
        rw [h2] at h1
        exact ((List.map_perm_map_iff (Option.some_injective _)).mp h1).trans hd
      · clear_value qs
        clear hQ hqs hperm hl ha hl' hmem
        induction hfa with
        | nil => exact .nil
        | @cons q c qs l hq hrest ih =>
          rw [List.pairwise_cons] at hpw ⊢
          refine ⟨fun d hd' => ?_, ih hpw.2⟩
          obtain ⟨i, hi, rfl⟩ := List.mem_iff_getElem.mp hd'
          have hlen := hrest.length_eq
          have := hrest.get (by rw [hlen]; exact hi) hi
          have h2 := hpw.1 _ (List.getElem_mem (show i < qs.length by rw [hlen]; exact hi))
          rw [hq.1] at h2
          have h3 := this.1
          simp only [List.get_eq_getElem] at h3
          rwa [h3] at h2
  obtain ⟨qs, as, l1, e1, l, p1, w1, f1⟩ := key cs (List.Perm.refl _) acts h
  obtain ⟨qs', as', l1', e1', l', p1', w1', f1'⟩ := key cs' hp.symm acts' h'
  have hll : l = l' := List.Perm.eq_of_pairwise (fun a b ha hb => hR a (p1.subset ha) b (p1'.subset hb)) w1 w1' (p1.trans p1'.symm)
  subst hll
  rw [e1, e1']
  refine loop_listing ?_ l1 l1'
  clear h h' l1 l1' p1 w1 w1' p1' e1 e1'
  induction f1 generalizing qs' with
  | nil => cases f1'; exact .nil
  | cons hq _ ih =>
    cases f1' with
    | cons hq' h' => exact .cons ⟨by rw [hq.1, hq'.1], by rw [hq.2, hq'.2]⟩ (ih _ h')

theorem better_antisymm {a b : FRate K} (ha : 0 < a.input) (hb : 0 < b.input) (ha' : 0 < a.output) (h1 : Better (⟨0, a⟩ : FQuote K) ⟨0, b⟩)
    (h2 : Better (⟨0, b⟩ : FQuote K) ⟨0, a⟩) : a = b := by
  unfold Better ratio at h1 h2
  dsimp only at h1 h2
  have e : a.output = b.output ∧ b.output / b.input = a.output / a.input := by
    rcases h1 with h1 | ⟨h1, h1'⟩
    · rcases h2 with h2 | ⟨h2, _⟩
      · exact absurd h1 h2.not_gt
      · exact absurd h1 (by rw [h2]; exact lt_irrefl _)
    · rcases h2 with h2 | ⟨_, h2'⟩
      · exact absurd h2 (by rw [h1]; exact lt_irrefl _)
      · exact ⟨le_antisymm h2' h1', h1⟩
  obtain ⟨e1, e2⟩ := e
  rw [← e1, div_eq_div_iff hb.ne' ha.ne'] at e2
  have := mul_left_cancel₀ ha'.ne' e2
  cases a
  cases b
  simp_all

variable {cs cs' : List (Curve K)}

/-- A request for a target amount to rearranged orders: if orders that quote the same are the same, the amounts are the same. -/
theorem perm_by_target (hp : cs.Perm cs') (hs : ∀ o ∈ cs, Sane o) (hpos : ∀ o ∈ cs, 0 < o.y) {x : K} (hx : x ≠ 0)
    (hties : ∀ c ∈ cs, ∀ d ∈ cs, rateByTarget |x| c = rateByTarget |x| d → c = d) {acts acts' : List (Action K)}
    (h : matchByTarget cs x = .ok acts) (h' : matchByTarget cs' x = .ok acts') :
    acts.map (fun a => (a.input, a.output)) = acts'.map (fun a => (a.input, a.output)) := by
  have hx0 : 0 < |x| := abs_pos.mpr hx
  have hin : ∀ o ∈ cs, 0 < min |x| o.y := fun o ho => lt_min hx0 (hpos o ho)
  refine perm_match (R := fun a b => Better (⟨0, b⟩ : FQuote K) ⟨0, a⟩) (f := fun o => ⟨min |x| o.y, cost o (min |x| o.y)⟩) hp
    (fun o ho => rateByTarget_ok (hs o ho) _) hin (fun l hl => (sort_better l hl).2) (fun c hc d hd h1 h2 => ?_) h h'
  have e := better_antisymm (hin c hc) (hin d hd) (cost_pos (hs c hc) (hin c hc) (min_le_right _ _)) h2 h1
  exact hties c hc d hd (by rw [rateByTarget_ok (hs c hc), rateByTarget_ok (hs d hd), e])

/-- A payment to rearranged orders. -/
theorem perm_by_source (hp : cs.Perm cs') (hs : ∀ o ∈ cs, Sane o) (hpos : ∀ o ∈ cs, 0 < o.y) {x : K} (hx : x ≠ 0)
    (hties : ∀ c ∈ cs, ∀ d ∈ cs, rateBySource |x| c = rateBySource |x| d → c = d) {acts acts' : List (Action K)}
    (h : matchBySource cs x = .ok acts) (h' : matchBySource cs' x = .ok acts') :
    acts.map (fun a => (a.input, a.output)) = acts'.map (fun a => (a.input, a.output)) := by
  have hx0 : 0 < |x| := abs_pos.mpr hx
  have hin : ∀ o ∈ cs, 0 < min |x| (cost o o.y) := fun o ho => lt_min hx0 (cost_pos (hs o ho) (hpos o ho) le_rfl)
  refine perm_match (R := fun a b => Better (⟨0, a⟩ : FQuote K) ⟨0, b⟩) (f := fun o => ⟨min |x| (cost o o.y), min (payout o |x|) o.y⟩) hp
    (fun o ho => rateBySource_ok (hs o ho) hx0.le) hin (fun l hl => (sort_better l hl).1) (fun c hc d hd h1 h2 => ?_) h h'
  have e := better_antisymm (hin c hc) (hin d hd) (lt_min (payout_pos (hs c hc) hx0) (hpos c hc)) h1 h2
  exact hties c hc d hd (by rw [rateBySource_ok (hs c hc) hx0.le, rateBySource_ok (hs d hd) hx0.le, e])

end

end Carbon.FastRouter

namespace Carbon.Sim

theorem suppliers_curves {s : Sim ℝ} (h : Healthy s) (p r : CarbonPair) (tkn : Str) (u : Option (List Nat)) :
    (suppliers s p r tkn u).map (·.curve) = (s.applicable p r tkn u).map (fun e => e.2.curve) ∧
    (∀ c ∈ (suppliers s p r tkn u).map (·.curve), FastRouter.Sane c ∧ 0 < c.y) ∧
    (suppliers s p r tkn u = [] ↔ s.applicable p r tkn u = []) := by
  have hc : (suppliers s p r tkn u).map (·.curve) = (s.applicable p r tkn u).map fun e => e.2.curve := by
    rw [suppliers_eq h.ids, List.map_map]
    rfl
  refine ⟨hc, ?_, ?_⟩
  · rw [hc]
    intro c hc
    obtain ⟨e, he, rfl⟩ := List.mem_map.mp hc
    exact ⟨good_sane (app_good h he).1, (app_good h he).2.1⟩
  · rw [suppliers_eq h.ids, List.map_eq_nil_iff]

/-- **C178** With the fast router, a sale succeeds in both simulators and the same amounts change hands, if orders are the same whenever they quote the
same for the amount. -/
theorem C178_fast_sale_partial (s s' : Sim ℝ) (h : Healthy s) (h' : Healthy s') (hL : Links s) (hL' : Links s') (hm : s.method = .fast)
    (hm' : s'.method = .fast) (a a' : TradeArgs ℝ) (h0 : 0 < a.amt) (hamt : a'.amt = a.amt) (htkn : a'.tkn = a.tkn) (hlp : a.limitPrice = none)
    (hla : a.limitAmt = none) (hip : a.inpair = true) (hlp' : a'.limitPrice = none) (hla' : a'.limitAmt = none) (hip' : a'.inpair = true)
    (p r : CarbonPair) (hp : s.getPair a.pair = .ok p) (hp' : s'.getPair a'.pair = .ok p) (hr : p.reverse = .ok r) (ht : p.hasToken a.tkn = true)
    (same : ((suppliers s p r a.tkn a.usePositions).map (·.curve)).Perm ((suppliers s' p r a.tkn a'.usePositions).map (·.curve)))
    (hne : suppliers s p r a.tkn a.usePositions ≠ [])
    (hties : ∀ o ∈ suppliers s p r a.tkn a.usePositions, ∀ o' ∈ suppliers s p r a.tkn a.usePositions,
      FastRouter.rateByTarget a.amt o.curve = FastRouter.rateByTarget a.amt o'.curve → o.curve = o'.curve) :
    ∃ given paid, Succeeds s false a a.tkn (some given) (some paid) ∧ Succeeds s' false a' a.tkn (some given) (some paid) := by
  obtain ⟨c1, g1, n1⟩ := suppliers_curves h p r a.tkn a.usePositions
  obtain ⟨c2, g2, n2⟩ := suppliers_curves h' p r a.tkn a'.usePositions
  have hne' : suppliers s' p r a.tkn a'.usePositions ≠ [] := by
    intro e
    rw [e, List.map_nil, List.perm_nil, List.map_eq_nil_iff] at same
    exact hne same
  have hx : (-a.amt) ≠ 0 := by linarith
  have habs : |-a.amt| = a.amt := by rw [abs_neg, abs_of_pos h0]
  have tot : ∀ cs : List (Curve ℝ), cs ≠ [] → (∀ c ∈ cs, FastRouter.Sane c ∧ 0 < c.y) →
      ∃ acts, FastRouter.matchByTarget cs (-a.amt) = .ok acts ∧ acts ≠ [] := by
    intro cs hcs hg
    obtain ⟨c, hc⟩ := List.exists_mem_of_ne_nil _ hcs
    obtain ⟨qs, acts, _, h1, h2⟩ := (FastRouter.C25_total (fun o ho => (hg o ho).1) ⟨c, hc, (hg c hc).2⟩ (-a.amt) hx).1
    exact ⟨acts, h1, (FastRouter.matchQuotes_loop h2).choose_spec.2.2⟩
  obtain ⟨acts, m1, k1⟩ := tot _ (by rwa [Ne, List.map_eq_nil_iff]) g1
  obtain ⟨acts', m2, k2⟩ := tot _ (by rwa [Ne, List.map_eq_nil_iff]) g2
  have hio := FastRouter.perm_by_target same (fun o ho => (g1 o ho).1) (fun o ho => (g1 o ho).2) hx (by
    rw [habs]
    intro c hc d hd
    obtain ⟨o, ho, rfl⟩ := List.mem_map.mp hc
    obtain ⟨o', ho', rfl⟩ := List.mem_map.mp hd
    exact hties o ho o' ho') m1 m2
  rw [c1] at m1
  rw [c2] at m2
  obtain ⟨recs, rec, t, i1, i2, i3, i4, i5, i6, i7⟩ := trade_of_route h hL hlp hla hip hr (amt := -a.amt) (byTarget := true) (by simp [h0.le])
    (fun e => by rw [hm] at e; cases e) ht k1 (by rw [hm]; exact m1)
  obtain ⟨recs', rec', t', j1, j2, j3, j4, j5, j6, j7⟩ := trade_of_route h' hL' hlp' hla' hip' hr (amt := -a.amt) (byTarget := true)
    (by simp [h0.le]) (fun e => by rw [hm'] at e; cases e) ht k2 (by rw [hm']; exact m2)
  have e1 := sells_of_app h h0.le hp hr fun e => hne (n1.mpr e)
  have e2 := sells_of_app h' (a := a') (by rw [hamt]; exact h0.le) hp' hr (by rw [htkn]; exact fun e => hne' (n2.mpr e))
  have sums : ∀ g : ℝ → ℝ → ℝ, (acts.map fun b => g b.input b.output).sum = (acts'.map fun b => g b.input b.output).sum := by
    intro g
    have := congrArg (fun l => (l.map fun t : ℝ × ℝ => g t.1 t.2).sum) hio
    simpa [List.map_map, Function.comp_def] using this
  refine ⟨rec.amt1, rec.amt2, ⟨recs, rec, t, e1.trans i1, i2, i3, i4, i5, by simp, by simp⟩, recs', rec', t', ?_, j2, j3, j4, j5, ?_, ?_⟩
  · rw [e2, htkn, hamt]
    exact j1
  · rintro w hw
    cases hw
    rw [i6, j6, hm, hm']
    exact (sums _).symm
  · rintro w hw
    cases hw
    rw [i7, j7, hm, hm']
    exact (sums _).symm

/-- **C178** The same for purchases. -/
theorem C178_fast_purchase_partial (s s' : Sim ℝ) (h : Healthy s) (h' : Healthy s') (hL : Links s) (hL' : Links s') (hm : s.method = .fast)
    (hm' : s'.method = .fast) (a a' : TradeArgs ℝ) (h0 : 0 < a.amt) (hamt : a'.amt = a.amt) (htkn : a'.tkn = a.tkn) (hlp : a.limitPrice = none)
    (hla : a.limitAmt = none) (hip : a.inpair = true) (hlp' : a'.limitPrice = none) (hla' : a'.limitAmt = none) (hip' : a'.inpair = true)
    (p r : CarbonPair) (hp : s.getPair a.pair = .ok p) (hp' : s'.getPair a'.pair = .ok p) (hr : p.reverse = .ok r) (t : Str)
    (ht : p.other a.tkn = some t)
    (same : ((suppliers s p r t a.usePositions).map (·.curve)).Perm ((suppliers s' p r t a'.usePositions).map (·.curve)))
    (hne : suppliers s p r t a.usePositions ≠ [])
    (hties : ∀ o ∈ suppliers s p r t a.usePositions, ∀ o' ∈ suppliers s p r t a.usePositions,
      FastRouter.rateBySource a.amt o.curve = FastRouter.rateBySource a.amt o'.curve → o.curve = o'.curve) :
    ∃ given paid, Succeeds s true a t (some given) (some paid) ∧ Succeeds s' true a' t (some given) (some paid) := by
  obtain ⟨c1, g1, n1⟩ := suppliers_curves h p r t a.usePositions
  obtain ⟨c2, g2, n2⟩ := suppliers_curves h' p r t a'.usePositions
  have hne' : suppliers s' p r t a'.usePositions ≠ [] := by
    intro e
    rw [e, List.map_nil, List.perm_nil, List.map_eq_nil_iff] at same
    exact hne same
  have habs : |a.amt| = a.amt := abs_of_pos h0
  have tot : ∀ cs : List (Curve ℝ), cs ≠ [] → (∀ c ∈ cs, FastRouter.Sane c ∧ 0 < c.y) →
      ∃ acts, FastRouter.matchBySource cs a.amt = .ok acts ∧ acts ≠ [] := by
    intro cs hcs hg
    obtain ⟨c, hc⟩ := List.exists_mem_of_ne_nil _ hcs
    obtain ⟨qs, acts, _, h1, h2⟩ := (FastRouter.C25_total (fun o ho => (hg o ho).1) ⟨c, hc, (hg c hc).2⟩ a.amt h0.ne').2
    exact ⟨acts, h1, (FastRouter.matchQuotes_loop h2).choose_spec.2.2⟩
  obtain ⟨acts, m1, k1⟩ := tot _ (by rwa [Ne, List.map_eq_nil_iff]) g1
  obtain ⟨acts', m2, k2⟩ := tot _ (by rwa [Ne, List.map_eq_nil_iff]) g2
  have hio := FastRouter.perm_by_source same (fun o ho => (g1 o ho).1) (fun o ho => (g1 o ho).2) h0.ne' (by
    rw [habs]
    intro c hc d hd
    obtain ⟨o, ho, rfl⟩ := List.mem_map.mp hc
    obtain ⟨o', ho', rfl⟩ := List.mem_map.mp hd
    exact hties o ho o' ho') m1 m2
  rw [c1] at m1
  rw [c2] at m2
  have htk : p.hasToken t = true := hasToken_of_other (other_other ht)
  obtain ⟨recs, rec, u, i1, i2, i3, i4, i5, i6, i7⟩ := trade_of_route h hL hlp hla hip hr (amt := a.amt) (byTarget := false) (by simp [h0.le])
    (fun e => by rw [hm] at e; cases e) htk k1 (by rw [hm]; exact m1)
  obtain ⟨recs', rec', u', j1, j2, j3, j4, j5, j6, j7⟩ := trade_of_route h' hL' hlp' hla' hip' hr (amt := a.amt) (byTarget := false)
    (by simp [h0.le]) (fun e => by rw [hm'] at e; cases e) htk k2 (by rw [hm']; exact m2)
  have e1 := buys_of_app h h0.le hp ht hr fun e => hne (n1.mpr e)
  have e2 := buys_of_app h' (a := a') (by rw [hamt]; exact h0.le) hp' (by rw [htkn]; exact ht) hr fun e => hne' (n2.mpr e)
  have sums : ∀ g : ℝ → ℝ → ℝ, (acts.map fun b => g b.input b.output).sum = (acts'.map fun b => g b.input b.output).sum := by
    intro g
    have := congrArg (fun l => (l.map fun t : ℝ × ℝ => g t.1 t.2).sum) hio
    simpa [List.map_map, Function.comp_def] using this
  refine ⟨rec.amt1, rec.amt2, ⟨recs, rec, u, e1.trans i1, i2, i3, i4, i5, by simp, by simp⟩, recs', rec', u', ?_, j2, j3, j4, j5, ?_, ?_⟩
  · rw [e2, hamt]
    exact j1
  · rintro w hw
    cases hw
    rw [i6, j6, hm, hm']
    exact (sums _).symm
  · rintro w hw
    cases hw
    rw [i7, j7, hm, hm']
    exact (sums _).symm

/-- **C178** However strategies are ordered when they are added to a simulator with the fast router: the same amounts change hands in a sale and in a
purchase, if orders are the same whenever they quote the same for the amount. -/
theorem C178_fast_added_partial (s : Sim ℝ) (h : Healthy s) (hL : Links s) (hm : s.method = .fast) (l l' : List (StrategyArgs ℝ)) (hperm : l.Perm l')
    (hacc : ∀ b ∈ l, ∃ r, (s.addStrategy b).1 = .ok r) (hs : ∀ b ∈ l, Sensible b) (a : TradeArgs ℝ) (h0 : 0 < a.amt) (hu : a.usePositions = none)
    (hlp : a.limitPrice = none) (hla : a.limitAmt = none) (hip : a.inpair = true) (p r : CarbonPair) (hp : s.getPair a.pair = .ok p)
    (hr : p.reverse = .ok r) :
    (p.hasToken a.tkn = true → suppliers (run s (l.map Op.add)) p r a.tkn none ≠ [] →
      (∀ o ∈ suppliers (run s (l.map Op.add)) p r a.tkn none, ∀ o' ∈ suppliers (run s (l.map Op.add)) p r a.tkn none,
        FastRouter.rateByTarget a.amt o.curve = FastRouter.rateByTarget a.amt o'.curve → o.curve = o'.curve) →
      ∃ given paid, Succeeds (run s (l.map Op.add)) false a a.tkn (some given) (some paid) ∧
        Succeeds (run s (l'.map Op.add)) false a a.tkn (some given) (some paid)) ∧
    ∀ t, p.other a.tkn = some t → suppliers (run s (l.map Op.add)) p r t none ≠ [] →
      (∀ o ∈ suppliers (run s (l.map Op.add)) p r t none, ∀ o' ∈ suppliers (run s (l.map Op.add)) p r t none,
        FastRouter.rateBySource a.amt o.curve = FastRouter.rateBySource a.amt o'.curve → o.curve = o'.curve) →
      ∃ given paid, Succeeds (run s (l.map Op.add)) true a t (some given) (some paid) ∧
        Succeeds (run s (l'.map Op.add)) true a t (some given) (some paid) := by
  obtain ⟨hr1, hr2⟩ := added h hL hperm hacc hs
  obtain ⟨p1, m1, h1, l1⟩ := hr1 l (Or.inl rfl)
  obtain ⟨p2, m2, h2, l2⟩ := hr1 l' (Or.inr rfl)
  refine ⟨fun ht hne hties => ?_, fun t ht hne hties => ?_⟩
  · exact C178_fast_sale_partial _ _ h1 h2 l1 l2 (m1.trans hm) (m2.trans hm) a a h0 rfl rfl hlp hla hip hlp hla hip p r ((p1 _).trans hp)
      ((p2 _).trans hp) hr ht (by rw [hu]; exact (hr2 p r a.tkn).1) (by rw [hu]; exact hne) (by rw [hu]; exact hties)
  · exact C178_fast_purchase_partial _ _ h1 h2 l1 l2 (m1.trans hm) (m2.trans hm) a a h0 rfl rfl hlp hla hip hlp hla hip p r ((p1 _).trans hp)
      ((p2 _).trans hp) hr t ht (by rw [hu]; exact (hr2 p r t).1) (by rw [hu]; exact hne) (by rw [hu]; exact hties)

end Carbon.Sim
