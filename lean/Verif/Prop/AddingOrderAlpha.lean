import Verif.Prop.AddingOrderFast

/-!
# Adding strategies in another order, with the alpha router (C178)
-/

set_option linter.unusedSectionVars false

namespace Carbon.AlphaRouter

open ExactRouter

/-- Orders as they are ranked by a quote. -/
theorem ranked_orders {ds : List (Curve ℝ)} {f : Curve ℝ → Py ℝ} {hyp : List ℝ} (hl : hyp.length = ds.length)
    (hi : ∀ (i : Nat) (c : Curve ℝ), ds[i]? = some c → ∃ b, hyp[i]? = some b ∧ f c = .ok b) :
    ∃ l : List (Curve ℝ), (rank hyp).Perm (List.range ds.length) ∧ (rank hyp).map (fun i => ds[i]?) = l.map some ∧ l.Perm ds ∧
      l.Pairwise (fun a b => ∀ u v, f a = .ok u → f b = .ok v → v ≤ u) := by
  have hr := rank_perm hyp
  rw [hl] at hr
  have hex : ∀ rk : List Nat, (∀ i ∈ rk, i < ds.length) → ∃ l : List (Curve ℝ), rk.map (fun i => ds[i]?) = l.map some := by
    intro rk
    induction rk with
    | nil => exact fun _ => ⟨[], rfl⟩
    | cons i rk ih =>
      intro h
      obtain ⟨l, e⟩ := ih fun j hj => h j (List.mem_cons_of_mem _ hj)
      have hi := h i List.mem_cons_self
      exact ⟨ds[i] :: l, by rw [List.map_cons, List.map_cons, e, List.getElem?_eq_getElem hi]⟩
  obtain ⟨l, e⟩ := hex (rank hyp) fun i hi => List.mem_range.mp (hr.subset hi)
  have hall : (List.range ds.length).map (fun i => ds[i]?) = ds.map some := by
    apply List.ext_getElem
    · simp
    · intro i h1 h2
      simp at h1 h2 ⊢
  refine ⟨l, hr, e, ?_, ?_⟩
  · have h1 := hr.map (fun i => ds[i]?)
    rw [e, hall] at h1
    exact (List.map_perm_map_iff (Option.some_injective _)).mp h1
  · have hs := rank_sorted hyp
    have h2 : (l.map some).Pairwise fun (a b : Option (Curve ℝ)) => ∀ c d, a = some c → b = some d → ∀ u v, f c = .ok u → f d = .ok v → v ≤ u := by
      rw [← e, List.pairwise_map]
      refine hs.imp ?_
      intro i j hij c d hc hd u v hu hv
      obtain ⟨u', hu', eu⟩ := hi i c hc
      obtain ⟨v', hv', ev⟩ := hi j d hd
      rw [hu] at eu
      rw [hv] at ev
      cases eu
      cases ev
      simpa [List.getD, hu', hv'] using hij
    rw [List.pairwise_map] at h2
    exact h2.imp fun h => h _ _ rfl rfl

/-- What the router by target does with a listing of orders, in terms of the orders as it ranks them. -/
theorem target_ranked {ds : List (Curve ℝ)} (hg : ∀ c ∈ ds, c.Good) {x : ℝ} (hx : x < 0) (thr : Option Nat) :
    ∃ (rk : List Nat) (l : List (Curve ℝ)), rk.Perm (List.range ds.length) ∧ rk.map (fun i => ds[i]?) = l.map some ∧ l.Perm ds ∧
      l.Pairwise (fun a b => ∀ u v, a.alphaByTarget x = .ok u → b.alphaByTarget x = .ok v → v ≤ u) ∧
      matchByTarget ds x thr false = (do
        let sel ← selector (l.map Curve.y) |x| (thr.getD 10)
        let ps ← selected rk sel
        matchExact ds x true ps false) := by
  obtain ⟨hyp, eh, hl, hi⟩ := mapM_ok (f := fun c : Curve ℝ => c.alphaByTarget x) (l := ds) fun c hc => byTarget_ok (hg c hc) hx
  obtain ⟨l, r1, r2, r3, r4⟩ := ranked_orders (f := fun c => c.alphaByTarget x) hl hi
  refine ⟨rank hyp, l, r1, r2, r3, r4, ?_⟩
  have hy : (rank hyp).map (fun i => ((ds[i]?).map Curve.y).getD 0) = l.map Curve.y := by
    have := congrArg (List.map fun o : Option (Curve ℝ) => (o.map Curve.y).getD 0) r2
    rw [List.map_map, List.map_map] at this
    exact this
  unfold matchByTarget
  rw [eh]
  simp only [Py.ok_bind]
  rw [hy, show adjust x (l.map Curve.y).sum false = x by simp [adjust]]

/-- The choice among ranked orders, in two listings of them. -/
theorem pick_same {cs cs' l : List (Curve ℝ)} {rk rk' : List Nat} (hlc : cs'.length = cs.length) (hne : cs ≠ [])
    (r1 : rk.Perm (List.range cs.length)) (r2 : rk.map (fun i => cs[i]?) = l.map some) (r1' : rk'.Perm (List.range cs'.length))
    (r2' : rk'.map (fun i => cs'[i]?) = l.map some) (r3 : l.Perm cs) (g : Curve ℝ → ℝ) (g0 : ∀ c ∈ cs, 0 ≤ g c) (t : ℝ) (k : Nat) (hk : 1 ≤ k) :
    ∃ (sel ps ps' : List Nat) (σ : Nat → Nat), selector (l.map g) t k = .ok (some sel) ∧ selected rk (some sel) = .ok ps ∧
      selected rk' (some sel) = .ok ps' ∧ Positions cs ps ps ∧ Positions cs' ps' ps' ∧ (ps.map σ).Perm ps' ∧ (∀ i ∈ ps, cs'[σ i]? = cs[i]?) ∧
      ∀ c, Choice cs k c → t ≤ total ps (fun i => ((cs[i]?).map g).getD 0) ∨
        total c (fun i => ((cs[i]?).map g).getD 0) ≤ total ps (fun i => ((cs[i]?).map g).getD 0) := by
  have hn : cs.length ≠ 0 := fun e => hne (List.length_eq_zero_iff.mp e)
  have hlen : rk.length = cs.length := by rw [r1.length_eq, List.length_range]
  have hlen' : rk'.length = cs.length := by rw [r1'.length_eq, List.length_range, hlc]
  have hnd : rk.Nodup := r1.nodup_iff.mpr List.nodup_range
  have hnd' : rk'.Nodup := r1'.nodup_iff.mpr List.nodup_range
  have hyl : rk.map (fun i => ((cs[i]?).map g).getD 0) = l.map g := by
    have := congrArg (List.map fun o : Option (Curve ℝ) => (o.map g).getD 0) r2
    rw [List.map_map, List.map_map] at this
    exact this
  have y0 : ∀ i, i < cs.length → 0 ≤ (fun i : Nat => ((cs[i]?).map g).getD 0) i := by
    intro i hi
    dsimp only
    rw [List.getElem?_eq_getElem hi]
    exact g0 _ (List.getElem_mem hi)
  obtain ⟨sel, ps, e1, e2, e3, e4, e5, e6, _⟩ := select_ok r1 hn _ y0 t _ hk
  rw [hyl] at e1
  obtain ⟨sel', s1, s2, s3, s4, _⟩ := C27_selector (l.map g) (by
      intro e
      rw [List.map_eq_nil_iff] at e
      rw [e, List.nil_perm] at r3
      exact hne r3) (by
      intro v hv
      obtain ⟨d, hd, rfl⟩ := List.mem_map.mp hv
      exact g0 d (r3.subset hd)) t k hk
  rw [e1] at s1
  cases s1
  have hb : ∀ k ∈ sel, k < cs.length := by
    intro k hk
    have := s3 k hk
    rwa [List.length_map, r3.length_eq] at this
  cases e2
  set ps := sel.map fun i => rk.getD i 0 with hps
  set ps' := sel.map fun i => rk'.getD i 0 with hps'
  have hpne : ps ≠ [] := by
    intro h0
    have := congrArg List.length h0
    rw [e5, List.length_nil] at this
    omega
  have hpne' : ps' ≠ [] := by
    rw [hps', Ne, List.map_eq_nil_iff]
    rw [hps, Ne, List.map_eq_nil_iff] at hpne
    exact hpne
  have n' : ps'.Nodup := by
    rw [hps']
    apply List.Nodup.map_on _ s2
    intro a ha b hb' e
    have h1 : a < rk'.length := by rw [hlen']; exact hb a ha
    have h2 : b < rk'.length := by rw [hlen']; exact hb b hb'
    simp only [List.getD, List.getElem?_eq_getElem h1, List.getElem?_eq_getElem h2, Option.getD_some] at e
    exact (hnd'.getElem_inj_iff).mp e
  have b' : ∀ i ∈ ps', i < cs'.length := by
    intro i hi
    rw [hps'] at hi
    obtain ⟨k, hk, rfl⟩ := List.mem_map.mp hi
    have h1 : k < rk'.length := by rw [hlen']; exact hb k hk
    simp only [List.getD, List.getElem?_eq_getElem h1, Option.getD_some]
    exact List.mem_range.mp (r1'.subset (List.getElem_mem h1))
  let σ : Nat → Nat := fun i => rk'.getD (rk.idxOf i) 0
  have hσk : ∀ k ∈ sel, σ (rk.getD k 0) = rk'.getD k 0 := by
    intro k hk
    have h1 : k < rk.length := by rw [hlen]; exact hb k hk
    show rk'.getD (rk.idxOf (rk.getD k 0)) 0 = _
    rw [show rk.getD k 0 = rk[k] by simp [List.getD, h1], hnd.idxOf_getElem]
  have hσ : (ps.map σ).Perm ps' := by
    rw [hps, hps', List.map_map, show sel.map (σ ∘ fun i => rk.getD i 0) = sel.map fun i => rk'.getD i 0 from
      List.map_congr_left fun k hk => hσk k hk]
  have same : ∀ i ∈ ps, cs'[σ i]? = cs[i]? := by
    intro i hi
    rw [hps] at hi
    obtain ⟨k, hk, rfl⟩ := List.mem_map.mp hi
    rw [hσk k hk]
    have h1 : k < rk.length := by rw [hlen]; exact hb k hk
    have h2 : k < rk'.length := by rw [hlen']; exact hb k hk
    have g2 := congrArg (fun z => z[k]?) r2'
    rw [← r2] at g2
    simp only [List.getElem?_map, List.getElem?_eq_getElem h1, List.getElem?_eq_getElem h2, Option.map_some, Option.some.injEq] at g2
    simpa [List.getD, h1, h2] using g2
  exact ⟨sel, ps, ps', σ, e1, rfl, rfl, positions_of e3 e4 hpne, positions_of n' b' hpne', hσ, same, fun c hc => e6 c hc.1 hc.2.1 hc.2.2⟩

private theorem choice_ne {cs : List (Curve ℝ)} {k : Nat} {c : List Nat} (hc : Choice cs k c) {f : Nat → ℝ} (h : 0 < total c f) : cs ≠ [] := by
  rintro rfl
  have : c = [] := by
    cases c with
    | nil => rfl
    | cons i c => have := hc.2.1 i List.mem_cons_self; simp at this
  rw [this] at h
  simp [total] at h

private theorem total_moved {cs cs' : List (Curve ℝ)} {ps ps' : List Nat} {σ : Nat → Nat} (hσ : (ps.map σ).Perm ps')
    (same : ∀ i ∈ ps, cs'[σ i]? = cs[i]?) (g : Curve ℝ → ℝ) :
    total ps (fun i => ((cs[i]?).map g).getD 0) = total ps' (fun i => ((cs'[i]?).map g).getD 0) := by
  unfold total
  rw [← (hσ.map _).sum_eq, List.map_map]
  congr 1
  refine List.map_congr_left fun i hi => ?_
  rw [Function.comp_apply, same i hi]

/-- A request to rearranged orders: if orders with equal quotes are the same, the amounts are the same. -/
theorem perm_alpha {cs cs' : List (Curve ℝ)} (hp : cs.Perm cs') (hg : ∀ c ∈ cs, c.Good) {x : ℝ} (hx : x < 0) (thr : Option Nat)
    (hk : 1 ≤ thr.getD 10) (hties : ∀ c ∈ cs, ∀ d ∈ cs, c.alphaByTarget x = d.alphaByTarget x → c = d) {c : List Nat}
    (hc : Choice cs (thr.getD 10) c) (hle : -x ≤ total c (yAt cs)) :
    ∃ acts acts', matchByTarget cs x thr false = .ok acts ∧ matchByTarget cs' x thr false = .ok acts' ∧
      Executable cs acts ∧ Executable cs' acts' ∧ (acts.map (·.output)).sum = x ∧ (acts'.map (·.output)).sum = x ∧
      (acts'.map (·.input)).sum = (acts.map (·.input)).sum := by
  have hg' : ∀ c ∈ cs', c.Good := fun c hc => hg c (hp.symm.subset hc)
  have hne : cs ≠ [] := choice_ne hc (lt_of_lt_of_le (by linarith) hle)
  obtain ⟨rk, l, r1, r2, r3, r4, r5⟩ := target_ranked hg hx thr
  obtain ⟨rk', l', r1', r2', r3', r4', r5'⟩ := target_ranked hg' hx thr
  have hll : l = l' := by
    refine List.Perm.eq_of_pairwise (fun a b ha hb h1 h2 => ?_) r4 r4' (r3.trans (hp.trans r3'.symm))
    have ha' := r3.subset ha
    have hb' := hp.symm.subset (r3'.subset hb)
    obtain ⟨u, hu⟩ := byTarget_ok (hg a ha') hx
    obtain ⟨v, hv⟩ := byTarget_ok (hg b hb') hx
    exact hties a ha' b hb' (by rw [hu, hv, le_antisymm (h2 v u hv hu) (h1 u v hu hv)])
  subst hll
  obtain ⟨sel, ps, ps', σ, e1, e2, e2', P, P', hσ, same, e6⟩ := pick_same hp.length_eq.symm hne r1 r2 r1' r2' r3 Curve.y
    (fun c hc => (hg c hc).hy0) |x| _ hk
  have hge : -x ≤ total ps (yAt cs) := by
    rcases e6 c hc with h | h
    · rwa [abs_of_neg hx] at h
    · exact hle.trans h
  have hge' : -x ≤ total ps' (yAt cs') := hge.trans (total_moved hσ same Curve.y).le
  obtain ⟨acts, acts', m1, m2, _, m4⟩ := C177_listing_target cs cs' hg hg' ps ps' ps ps' P P' σ hσ same x hx hge false false
  obtain ⟨_, f1, f2, _, f4, _⟩ := C69_by_target cs hg ps ps P x hx hge false
  obtain ⟨_, g1, g2, _, g4, _⟩ := C69_by_target cs' hg' ps' ps' P' x hx hge' false
  rw [m1] at f1
  rw [m2] at g1
  cases f1
  cases g1
  refine ⟨acts, acts', ?_, ?_, f2, g2, f4, g4, m4⟩
  · rw [r5, e1, Py.ok_bind, e2]
    exact m1
  · rw [r5', e1, Py.ok_bind, e2']
    exact m2

/-- What the router by source does with a listing of orders, in terms of the orders as it ranks them. -/
theorem source_ranked {ds : List (Curve ℝ)} (hg : ∀ c ∈ ds, c.Good) {x : ℝ} (hx : 0 < x) (k : Nat) :
    ∃ (rk : List Nat) (l : List (Curve ℝ)), rk.Perm (List.range ds.length) ∧ rk.map (fun i => ds[i]?) = l.map some ∧ l.Perm ds ∧
      l.Pairwise (fun a b => ∀ u v, a.alphaBySrc x = .ok u → b.alphaBySrc x = .ok v → v ≤ u) ∧
      matchBySrc ds x (some k) false = (do
        let sel ← selector (l.map fun c => counted c x) |x| k
        let ps ← selected rk sel
        matchExact ds x false ps false) := by
  obtain ⟨hyp, eh, hl, hi⟩ := mapM_ok (f := fun c : Curve ℝ => c.alphaBySrc x) (l := ds) fun c hc => by
    obtain ⟨v, e, _⟩ := bySrc_ok (hg c hc) hx
    exact ⟨v, e⟩
  have hzip : ∀ (i : Nat) (p : Curve ℝ × ℝ), (ds.zip hyp)[i]? = some p →
      availableValue p.1 x p.2 = .ok (counted p.1 x) ∧ ds[i]? = some p.1 := by
    intro i p hp
    obtain ⟨h1, h2⟩ := List.getElem?_zip_eq_some.mp hp
    obtain ⟨v, hv, ev⟩ := hi i p.1 h1
    rw [h2] at hv
    cases hv
    obtain ⟨v', ev', _, ea⟩ := bySrc_ok (hg p.1 (List.mem_of_getElem? h1)) hx
    rw [ev] at ev'
    cases ev'
    exact ⟨ea, h1⟩
  obtain ⟨vals, ev, hvl, hvi⟩ := mapM_ok (f := fun p : Curve ℝ × ℝ => availableValue p.1 x p.2) (l := ds.zip hyp) (by
    intro p hp
    obtain ⟨i, hi⟩ := List.mem_iff_getElem?.mp hp
    exact ⟨_, (hzip i p hi).1⟩)
  have hval : ∀ i, i < ds.length → vals.getD i 0 = ((ds[i]?).map fun c => counted c x).getD 0 := by
    intro i hi
    have hi' : i < (ds.zip hyp).length := by rw [List.length_zip, hl, min_self]; exact hi
    obtain ⟨b, hb, eb⟩ := hvi i _ (List.getElem?_eq_getElem hi')
    obtain ⟨h1, h2⟩ := hzip i _ (List.getElem?_eq_getElem hi')
    rw [h1] at eb
    cases eb
    rw [List.getD, hb, h2]
    rfl
  obtain ⟨l, r1, r2, r3, r4⟩ := ranked_orders (f := fun c => c.alphaBySrc x) hl hi
  refine ⟨rank hyp, l, r1, r2, r3, r4, ?_⟩
  have hmap : (rank hyp).map (fun i => vals.getD i 0) = l.map fun c => counted c x := by
    rw [List.map_congr_left fun i hi => hval i (List.mem_range.mp (r1.mem_iff.mp hi))]
    have := congrArg (List.map fun o : Option (Curve ℝ) => (o.map fun c => counted c x).getD 0) r2
    rw [List.map_map, List.map_map] at this
    exact this
  unfold matchBySrc
  rw [eh]
  simp only [Py.ok_bind]
  rw [ev]
  simp only [Py.ok_bind]
  rw [hmap, show adjust x (l.map fun c => counted c x).sum false = x by simp [adjust]]

/-- A payment to rearranged orders. -/
theorem perm_alpha_source {cs cs' : List (Curve ℝ)} (hp : cs.Perm cs') (hg : ∀ c ∈ cs, c.Good) {x : ℝ} (hx : 0 < x) {k : Nat}
    (hk : 1 ≤ k) (hties : ∀ c ∈ cs, ∀ d ∈ cs, c.alphaBySrc x = d.alphaBySrc x → c = d) {c : List Nat}
    (hc : Choice cs k c) (hle : x ≤ total c (countedAt cs x)) :
    ∃ acts acts', matchBySrc cs x (some k) false = .ok acts ∧ matchBySrc cs' x (some k) false = .ok acts' ∧
      Executable cs acts ∧ Executable cs' acts' ∧ (acts.map (·.input)).sum = x ∧ (acts'.map (·.input)).sum = x ∧
      (acts'.map (·.output)).sum = (acts.map (·.output)).sum := by
  have hg' : ∀ c ∈ cs', c.Good := fun c hc => hg c (hp.symm.subset hc)
  have hne : cs ≠ [] := choice_ne hc (lt_of_lt_of_le hx hle)
  obtain ⟨rk, l, r1, r2, r3, r4, r5⟩ := source_ranked hg hx k
  obtain ⟨rk', l', r1', r2', r3', r4', r5'⟩ := source_ranked hg' hx k
  have hll : l = l' := by
    refine List.Perm.eq_of_pairwise (fun a b ha hb h1 h2 => ?_) r4 r4' (r3.trans (hp.trans r3'.symm))
    have ha' := r3.subset ha
    have hb' := hp.symm.subset (r3'.subset hb)
    obtain ⟨u, hu, _⟩ := bySrc_ok (hg a ha') hx
    obtain ⟨v, hv, _⟩ := bySrc_ok (hg b hb') hx
    exact hties a ha' b hb' (by rw [hu, hv, le_antisymm (h2 v u hv hu) (h1 u v hu hv)])
  subst hll
  have cap : ∀ c ∈ cs, ∃ q, c.dxdy (-c.y) = .ok q ∧ 0 ≤ counted c x ∧ counted c x ≤ q := by
    intro c hc
    obtain ⟨q, hq⟩ := C70_capital_exists cs hg
    obtain ⟨i, hi⟩ := List.mem_iff_getElem?.mp hc
    exact ⟨q i, hq i c hi, C71_counted_le c (hg c hc) x hx _ (hq i c hi)⟩
  obtain ⟨sel, ps, ps', σ, e1, e2, e2', P, P', hσ, same, e6⟩ := pick_same hp.length_eq.symm hne r1 r2 r1' r2' r3 (fun c => counted c x)
    (fun c hc => (cap c hc).choose_spec.2.1) |x| _ hk
  have hge : x ≤ total ps (countedAt cs x) := by
    rcases e6 c hc with h | h
    · rwa [abs_of_pos hx] at h
    · exact hle.trans h
  have hge' : x ≤ total ps' (countedAt cs' x) := hge.trans (total_moved hσ same fun c => counted c x).le
  have real : ∀ ds : List (Curve ℝ), (∀ c ∈ ds, c.Good) → ∀ (ql : List Nat) (q : Nat → ℝ), (∀ i ∈ ql, i < ds.length) →
      (∀ (i : Nat) (c : Curve ℝ), ds[i]? = some c → c.dxdy (-c.y) = .ok (q i)) → total ql (countedAt ds x) ≤ total ql q := by
    intro ds hd ql q hlt hq
    unfold total
    refine List.sum_le_sum fun i hi => ?_
    have hil := hlt i hi
    have ei : ds[i]? = some ds[i] := List.getElem?_eq_getElem hil
    rw [countedAt, ei]
    exact (C71_counted_le _ (hd _ (List.getElem_mem _)) x hx _ (hq i _ ei)).2
  obtain ⟨q, hq⟩ := C70_capital_exists cs hg
  obtain ⟨q', hq'⟩ := C70_capital_exists cs' hg'
  have hl := hge.trans (real cs hg ps q P.2.1 hq)
  have hl' := hge'.trans (real cs' hg' ps' q' P'.2.1 hq')
  obtain ⟨acts, acts', m1, m2, _, m4⟩ := C177_listing_source cs cs' hg hg' ps ps' ps ps' P P' σ hσ same x hx q hq hl false false
  obtain ⟨_, f1, f2, _, f4, _⟩ := (C70_by_source cs hg ps ps P x hx q hq).1 hl false
  obtain ⟨_, g1, g2, _, g4, _⟩ := (C70_by_source cs' hg' ps' ps' P' x hx q' hq').1 hl' false
  rw [m1] at f1
  rw [m2] at g1
  cases f1
  cases g1
  refine ⟨acts, acts', ?_, ?_, f2, g2, f4, g4, m4⟩
  · rw [r5, e1, Py.ok_bind, e2]
    exact m1
  · rw [r5', e1, Py.ok_bind, e2']
    exact m2

end Carbon.AlphaRouter

namespace Carbon.Sim

/-- **C178** With the alpha router, a sale that some of the orders, as many as the router may use, can serve succeeds in both simulators and costs the
same, if orders are the same whenever they quote the same for the amount. -/
theorem C178_alpha_sale_partial (s s' : Sim ℝ) (h : Healthy s) (h' : Healthy s') (hL : Links s) (hL' : Links s') (hm : s.method = .alpha)
    (hm' : s'.method = .alpha) (a a' : TradeArgs ℝ) (h0 : 0 < a.amt) (hamt : a'.amt = a.amt) (htkn : a'.tkn = a.tkn)
    (hthr : a'.threshold = a.threshold) (hk : 1 ≤ a.threshold.getD 10) (hsp : a.supportPartial = false) (hsp' : a'.supportPartial = false)
    (hlp : a.limitPrice = none) (hla : a.limitAmt = none) (hip : a.inpair = true) (hlp' : a'.limitPrice = none) (hla' : a'.limitAmt = none)
    (hip' : a'.inpair = true) (p r : CarbonPair) (hp : s.getPair a.pair = .ok p) (hp' : s'.getPair a'.pair = .ok p) (hr : p.reverse = .ok r)
    (ht : p.hasToken a.tkn = true)
    (same : ((suppliers s p r a.tkn a.usePositions).map (·.curve)).Perm ((suppliers s' p r a.tkn a'.usePositions).map (·.curve)))
    (hties : ∀ o ∈ suppliers s p r a.tkn a.usePositions, ∀ o' ∈ suppliers s p r a.tkn a.usePositions,
      o.curve.alphaByTarget (-a.amt) = o'.curve.alphaByTarget (-a.amt) → o.curve = o'.curve)
    (c : List Nat) (hc : AlphaRouter.Choice ((suppliers s p r a.tkn a.usePositions).map (·.curve)) (a.threshold.getD 10) c)
    (hle : a.amt ≤ ExactRouter.total c (ExactRouter.yAt ((suppliers s p r a.tkn a.usePositions).map (·.curve)))) :
    ∃ paid, Succeeds s false a a.tkn (some a.amt) (some paid) ∧ Succeeds s' false a' a.tkn (some a.amt) (some paid) := by
  have G := suppliers_good h p r a.tkn a.usePositions
  have G' := suppliers_good h' p r a.tkn a'.usePositions
  obtain ⟨acts, acts', m1, m2, x1, x2, o1, o2, hi⟩ := AlphaRouter.perm_alpha same G (x := -a.amt) (by linarith) a.threshold hk (by
    intro c hc d hd
    obtain ⟨o, ho, rfl⟩ := List.mem_map.mp hc
    obtain ⟨o', ho', rfl⟩ := List.mem_map.mp hd
    exact hties o ho o' ho') hc (by rw [neg_neg]; exact hle)
  have go : ∀ (s : Sim ℝ) (a : TradeArgs ℝ) (acts : List (Action ℝ)), Healthy s → Links s → s.method = .alpha → 0 < a.amt →
      a.supportPartial = false → a.limitPrice = none → a.limitAmt = none → a.inpair = true → s.getPair a.pair = .ok p → p.hasToken a.tkn = true →
      AlphaRouter.matchByTarget ((suppliers s p r a.tkn a.usePositions).map (·.curve)) (-a.amt) a.threshold false = .ok acts →
      ExactRouter.Executable ((suppliers s p r a.tkn a.usePositions).map (·.curve)) acts → (acts.map (·.output)).sum = -a.amt →
      Succeeds s false a a.tkn (some a.amt) (some (acts.map (·.input)).sum) := by
    intro s a acts h hL hm h0 hsp hlp hla hip hp ht he hx ho
    have hsgn := ExactRouter.executable_signs (suppliers_good h p r a.tkn a.usePositions) hx
    obtain ⟨hc, _, hnil⟩ := suppliers_curves h p r a.tkn a.usePositions
    have hne : acts ≠ [] := by
      rintro rfl
      simp at ho
      linarith
    have happ : s.applicable p r a.tkn a.usePositions ≠ [] := by
      intro e
      obtain ⟨b, hb⟩ := List.exists_mem_of_ne_nil _ hne
      obtain ⟨d, hd, _⟩ := hx.2.2 b hb
      rw [hnil.mpr e] at hd
      simp at hd
    rw [hc] at he
    obtain ⟨recs, rec, s1, i1, i2, i3, i4, i5, i6, i7⟩ := trade_of_route h hL hlp hla hip hr (amt := -a.amt) (byTarget := true) (by simp [h0.le])
      (fun _ => hsp) ht hne (by rw [hm, hsp]; exact he)
    refine ⟨recs, rec, s1, (sells_of_app h h0.le hp hr happ).trans i1, i2, i3, i4, i5, ?_, ?_⟩
    · rintro w hw
      cases hw
      rw [i6, hm]
      show (acts.map fun b => sold false b.input b.output).sum = _
      rw [neg_sum fun b hb => (hsgn b hb).1, ho, neg_neg]
    · rintro w hw
      cases hw
      rw [i7, hm]
      show (acts.map fun b => |b.input|).sum = _
      exact abs_sum fun b hb => (hsgn b hb).2.le
  refine ⟨_, go s a acts h hL hm h0 hsp hlp hla hip hp ht m1 x1 o1, ?_⟩
  have := go s' a' acts' h' hL' hm' (by rw [hamt]; exact h0) hsp' hlp' hla' hip' hp' (by rw [htkn]; exact ht) (by rw [htkn, hamt, hthr]; exact m2)
    (by rw [htkn]; exact x2) (by rw [hamt]; exact o2)
  rwa [htkn, hamt, hi] at this

/-- **C178** The same for purchases, where an order counts for what the router counts it for (`counted`, at most what it charges for all it holds). -/
theorem C178_alpha_purchase_partial (s s' : Sim ℝ) (h : Healthy s) (h' : Healthy s') (hL : Links s) (hL' : Links s') (hm : s.method = .alpha)
    (hm' : s'.method = .alpha) (a a' : TradeArgs ℝ) (h0 : 0 < a.amt) (hamt : a'.amt = a.amt) (htkn : a'.tkn = a.tkn) (k : Nat)
    (hthr : a.threshold = some k) (hthr' : a'.threshold = some k) (hk : 1 ≤ k) (hsp : a.supportPartial = false) (hsp' : a'.supportPartial = false)
    (hlp : a.limitPrice = none) (hla : a.limitAmt = none) (hip : a.inpair = true) (hlp' : a'.limitPrice = none) (hla' : a'.limitAmt = none)
    (hip' : a'.inpair = true) (p r : CarbonPair) (hp : s.getPair a.pair = .ok p) (hp' : s'.getPair a'.pair = .ok p) (hr : p.reverse = .ok r)
    (t : Str) (ht : p.other a.tkn = some t)
    (same : ((suppliers s p r t a.usePositions).map (·.curve)).Perm ((suppliers s' p r t a'.usePositions).map (·.curve)))
    (hties : ∀ o ∈ suppliers s p r t a.usePositions, ∀ o' ∈ suppliers s p r t a.usePositions,
      o.curve.alphaBySrc a.amt = o'.curve.alphaBySrc a.amt → o.curve = o'.curve)
    (c : List Nat) (hc : AlphaRouter.Choice ((suppliers s p r t a.usePositions).map (·.curve)) k c)
    (hle : a.amt ≤ ExactRouter.total c (AlphaRouter.countedAt ((suppliers s p r t a.usePositions).map (·.curve)) a.amt)) :
    ∃ given, Succeeds s true a t (some given) (some a.amt) ∧ Succeeds s' true a' t (some given) (some a.amt) := by
  have G := suppliers_good h p r t a.usePositions
  obtain ⟨acts, acts', m1, m2, x1, x2, o1, o2, hi⟩ := AlphaRouter.perm_alpha_source same G h0 hk (by
    intro c hc d hd
    obtain ⟨o, ho, rfl⟩ := List.mem_map.mp hc
    obtain ⟨o', ho', rfl⟩ := List.mem_map.mp hd
    exact hties o ho o' ho') hc hle
  have htk : p.hasToken t = true := hasToken_of_other (other_other ht)
  have go : ∀ (s : Sim ℝ) (a : TradeArgs ℝ) (acts : List (Action ℝ)), Healthy s → Links s → s.method = .alpha → 0 < a.amt → a.threshold = some k →
      a.supportPartial = false → a.limitPrice = none → a.limitAmt = none → a.inpair = true → s.getPair a.pair = .ok p → p.other a.tkn = some t →
      AlphaRouter.matchBySrc ((suppliers s p r t a.usePositions).map (·.curve)) a.amt (some k) false = .ok acts →
      ExactRouter.Executable ((suppliers s p r t a.usePositions).map (·.curve)) acts → (acts.map (·.input)).sum = a.amt →
      Succeeds s true a t (some (-(acts.map (·.output)).sum)) (some a.amt) := by
    intro s a acts h hL hm h0 hthr hsp hlp hla hip hp ht he hx ho
    have hsgn := ExactRouter.executable_signs (suppliers_good h p r t a.usePositions) hx
    obtain ⟨hc, _, hnil⟩ := suppliers_curves h p r t a.usePositions
    have hne : acts ≠ [] := by
      rintro rfl
      simp at ho
      linarith
    have happ : s.applicable p r t a.usePositions ≠ [] := by
      intro e
      obtain ⟨b, hb⟩ := List.exists_mem_of_ne_nil _ hne
      obtain ⟨d, hd, _⟩ := hx.2.2 b hb
      rw [hnil.mpr e] at hd
      simp at hd
    rw [hc] at he
    obtain ⟨recs, rec, s1, i1, i2, i3, i4, i5, i6, i7⟩ := trade_of_route h hL hlp hla hip hr (amt := a.amt) (byTarget := false) (by simp [h0.le])
      (fun _ => hsp) htk hne (by rw [hm, hsp, hthr]; exact he)
    refine ⟨recs, rec, s1, (buys_of_app h h0.le hp ht hr happ).trans i1, i2, i3, i4, i5, ?_, ?_⟩
    · rintro w hw
      cases hw
      rw [i6, hm]
      show (acts.map fun b => sold false b.input b.output).sum = _
      exact neg_sum fun b hb => (hsgn b hb).1
    · rintro w hw
      cases hw
      rw [i7, hm]
      show (acts.map fun b => |b.input|).sum = _
      rw [abs_sum fun b hb => (hsgn b hb).2.le, ho]
  refine ⟨_, go s a acts h hL hm h0 hthr hsp hlp hla hip hp ht m1 x1 o1, ?_⟩
  have := go s' a' acts' h' hL' hm' (by rw [hamt]; exact h0) hthr' hsp' hlp' hla' hip' hp' (by rw [htkn]; exact ht) (by rw [hamt]; exact m2)
    x2 (by rw [hamt]; exact o2)
  rwa [hamt, hi] at this

/-- **C178** However strategies are ordered when they are added to a simulator with the alpha router: a sale costs the same, if some of the orders, as
many as the router may use, can serve it, and orders are the same whenever they quote the same for the amount. -/
theorem C178_alpha_added_partial (s : Sim ℝ) (h : Healthy s) (hL : Links s) (hm : s.method = .alpha) (l l' : List (StrategyArgs ℝ)) (hperm : l.Perm l')
    (hacc : ∀ b ∈ l, ∃ r, (s.addStrategy b).1 = .ok r) (hs : ∀ b ∈ l, Sensible b) (a : TradeArgs ℝ) (h0 : 0 < a.amt) (hu : a.usePositions = none)
    (hk : 1 ≤ a.threshold.getD 10) (hsp : a.supportPartial = false)
    (hlp : a.limitPrice = none) (hla : a.limitAmt = none) (hip : a.inpair = true) (p r : CarbonPair) (hp : s.getPair a.pair = .ok p)
    (hr : p.reverse = .ok r) (ht : p.hasToken a.tkn = true)
    (hties : ∀ o ∈ suppliers (run s (l.map Op.add)) p r a.tkn none, ∀ o' ∈ suppliers (run s (l.map Op.add)) p r a.tkn none,
      o.curve.alphaByTarget (-a.amt) = o'.curve.alphaByTarget (-a.amt) → o.curve = o'.curve)
    (c : List Nat) (hc : AlphaRouter.Choice ((suppliers (run s (l.map Op.add)) p r a.tkn none).map (·.curve)) (a.threshold.getD 10) c)
    (hle : a.amt ≤ ExactRouter.total c (ExactRouter.yAt ((suppliers (run s (l.map Op.add)) p r a.tkn none).map (·.curve)))) :
    ∃ paid, Succeeds (run s (l.map Op.add)) false a a.tkn (some a.amt) (some paid) ∧
      Succeeds (run s (l'.map Op.add)) false a a.tkn (some a.amt) (some paid) := by
  obtain ⟨hr1, hr2⟩ := added h hL hperm hacc hs
  obtain ⟨p1, m1, h1, l1⟩ := hr1 l (Or.inl rfl)
  obtain ⟨p2, m2, h2, l2⟩ := hr1 l' (Or.inr rfl)
  exact C178_alpha_sale_partial _ _ h1 h2 l1 l2 (m1.trans hm) (m2.trans hm) a a h0 rfl rfl rfl hk hsp hsp hlp hla hip hlp hla hip p r
    ((p1 _).trans hp) ((p2 _).trans hp) hr ht (by rw [hu]; exact (hr2 p r a.tkn).1) (by rw [hu]; exact hties) c (by rw [hu]; exact hc)
    (by rw [hu]; exact hle)

/-- **C178** The same for purchases. -/
theorem C178_alpha_added_purchase_partial (s : Sim ℝ) (h : Healthy s) (hL : Links s) (hm : s.method = .alpha) (l l' : List (StrategyArgs ℝ))
    (hperm : l.Perm l') (hacc : ∀ b ∈ l, ∃ r, (s.addStrategy b).1 = .ok r) (hs : ∀ b ∈ l, Sensible b) (a : TradeArgs ℝ) (h0 : 0 < a.amt)
    (hu : a.usePositions = none) (k : Nat) (hthr : a.threshold = some k) (hk : 1 ≤ k) (hsp : a.supportPartial = false)
    (hlp : a.limitPrice = none) (hla : a.limitAmt = none) (hip : a.inpair = true) (p r : CarbonPair) (hp : s.getPair a.pair = .ok p)
    (hr : p.reverse = .ok r) (t : Str) (ht : p.other a.tkn = some t)
    (hties : ∀ o ∈ suppliers (run s (l.map Op.add)) p r t none, ∀ o' ∈ suppliers (run s (l.map Op.add)) p r t none,
      o.curve.alphaBySrc a.amt = o'.curve.alphaBySrc a.amt → o.curve = o'.curve)
    (c : List Nat) (hc : AlphaRouter.Choice ((suppliers (run s (l.map Op.add)) p r t none).map (·.curve)) k c)
    (hle : a.amt ≤ ExactRouter.total c (AlphaRouter.countedAt ((suppliers (run s (l.map Op.add)) p r t none).map (·.curve)) a.amt)) :
    ∃ given, Succeeds (run s (l.map Op.add)) true a t (some given) (some a.amt) ∧
      Succeeds (run s (l'.map Op.add)) true a t (some given) (some a.amt) := by
  obtain ⟨hr1, hr2⟩ := added h hL hperm hacc hs
  obtain ⟨p1, m1, h1, l1⟩ := hr1 l (Or.inl rfl)
  obtain ⟨p2, m2, h2, l2⟩ := hr1 l' (Or.inr rfl)
  exact C178_alpha_purchase_partial _ _ h1 h2 l1 l2 (m1.trans hm) (m2.trans hm) a a h0 rfl rfl k hthr hthr hk hsp hsp hlp hla hip hlp hla hip p r
    ((p1 _).trans hp) ((p2 _).trans hp) hr t ht (by rw [hu]; exact (hr2 p r t).1) (by rw [hu]; exact hties) c (by rw [hu]; exact hc)
    (by rw [hu]; exact hle)

/-- 9 ETH from 1/9 to 9 USDC. -/
def nineStrat : StrategyArgs ℚ := { strat with amtSell := some 9, psellStart := some (1 / 9), psellEnd := some 9 }

/-- 128 ETH from 1/16 to 81/16 USDC. -/
def manyStrat : StrategyArgs ℚ := { strat with amtSell := some 128, psellStart := some (1 / 16), psellEnd := some (81 / 16) }

/-- **C178** fails with the alpha router, too: a strategy that asks 9 USDC for 9 ETH and one that asks 3/5 have the same hypothetical amount for them.
The one with the lower number is used when one order may be, and so the cost depends on the order in which they were added. -/
theorem C178_alpha_violated :
    (∀ b ∈ [nineStrat, manyStrat], ∃ r, ((sim0 .alpha).addStrategy b).1 = .ok r) ∧
    outcome ((run (sim0 .alpha) [.add nineStrat, .add manyStrat]).ammSells { tkn := "ETH".toList, amt := 9, threshold := some 1 }) = some (true, 9, 9) ∧
    outcome ((run (sim0 .alpha) [.add manyStrat, .add nineStrat]).ammSells { tkn := "ETH".toList, amt := 9, threshold := some 1 }) =
      some (true, 9, 3 / 5) := by
  refine ⟨?_, by decide +kernel, by decide +kernel⟩
  intro b hb
  simp only [List.mem_cons, List.not_mem_nil, or_false] at hb
  rcases hb with rfl | rfl
  · exact ⟨(0, 1), by decide +kernel⟩
  · exact ⟨(0, 1), by decide +kernel⟩

end Carbon.Sim
