import Mathlib.Algebra.BigOperators.Group.Finset.Basic
import Verif.Carbon.OrderUIHeap
import Verif.Prop.OrderUIHistory

/-!
# C152: order curves as objects that refer to each other
-/

set_option linter.unusedSectionVars false

namespace Carbon.UICurve.Heap

open Carbon.UICurve

variable {K : Type} [Field K] [LinearOrder K] [IsStrictOrderedRing K]

/-- Specification: what a call may do to one object. Token, pair and price range never change, capacity never shrinks, and holdings that were
within capacity stay so. -/
structure Evolves (c c' : UICurve K) : Prop where
  pair : c'.pair = c.pair
  tkn : c'.tkn = c.tkn
  B : c'.B = c.B
  S : c'.S = c.S
  cap : c.yint ≤ c'.yint
  ok : 0 ≤ c.y → c.y ≤ c.yint → 0 ≤ c'.y ∧ c'.y ≤ c'.yint

theorem Evolves.refl (c : UICurve K) : Evolves c c := ⟨rfl, rfl, rfl, rfl, le_rfl, fun a b => ⟨a, b⟩⟩

theorem Evolves.trans {a b c : UICurve K} (h : Evolves a b) (g : Evolves b c) : Evolves a c :=
  ⟨g.pair.trans h.pair, g.tkn.trans h.tkn, g.B.trans h.B, g.S.trans h.S, h.cap.trans g.cap,
    fun p q => g.ok (h.ok p q).1 (h.ok p q).2⟩

theorem Evolves.sound {c c' : UICurve K} (h : Evolves c c') (s : Sound c) : Sound c' := by
  obtain ⟨a, b⟩ := h.ok s.hy0 s.hy
  exact ⟨h.B ▸ s.hB, h.S ▸ s.hS, s.hyint.trans_le h.cap, a, b⟩

/-- Specification: what a call on object `i` may do to the objects: `id` and `link` do not change, the curves evolve, and only the object
itself and the one it is linked to are touched. -/
structure Touches (h h' : Heap K) (i : Nat) : Prop where
  id : ∀ k, (h' k).id = (h k).id
  link : ∀ k, (h' k).link = (h k).link
  evolves : ∀ k, Evolves (h k).curve (h' k).curve
  frame : ∀ k, k ≠ i → (h i).link ≠ some k → h' k = h k

theorem Touches.refl (h : Heap K) (i : Nat) : Touches h h i :=
  ⟨fun _ => rfl, fun _ => rfl, fun _ => .refl _, fun _ _ _ => rfl⟩

theorem Touches.trans {a b c : Heap K} {i : Nat} (h : Touches a b i) (g : Touches b c i) : Touches a c i :=
  ⟨fun k => (g.id k).trans (h.id k), fun k => (g.link k).trans (h.link k), fun k => (h.evolves k).trans (g.evolves k),
    fun k p q => (g.frame k p (by rw [h.link i]; exact q)).trans (h.frame k p q)⟩

theorem put_same (h : Heap K) (i : Nat) (c : UICurve K) : put h i c i = { h i with curve := c } := by simp [put]

theorem put_other (h : Heap K) {i k : Nat} (c : UICurve K) (hk : k ≠ i) : put h i c k = h k := by simp [put, hk]

theorem put_link (h : Heap K) (i : Nat) (c : UICurve K) (k : Nat) : (put h i c k).link = (h k).link := by
  by_cases hk : k = i
  · subst hk; rw [put_same]
  · rw [put_other _ _ hk]

theorem put_id (h : Heap K) (i : Nat) (c : UICurve K) (k : Nat) : (put h i c k).id = (h k).id := by
  by_cases hk : k = i
  · subst hk; rw [put_same]
  · rw [put_other _ _ hk]

theorem touches_put {h : Heap K} {i j : Nat} {c : UICurve K} (hj : j = i ∨ (h i).link = some j) (hc : Evolves (h j).curve c) :
    Touches h (put h j c) i := by
  refine ⟨put_id _ _ _, put_link _ _ _, fun k => ?_, fun k p q => ?_⟩
  · by_cases hk : k = j
    · subst hk; rw [put_same]; exact hc
    · rw [put_other _ _ hk]; exact .refl _
  · refine put_other _ _ ?_
    rintro rfl
    rcases hj with hj | hj
    · exact p hj
    · exact q hj

theorem evolves_addliqy (c : UICurve K) (dy : K) (e : Bool) : Evolves c (c.addliqy dy e).2 := by
  unfold UICurve.addliqy
  split
  · exact .refl _
  · rename_i hd
    split
    · exact .refl _
    · dsimp only
      split
      · rename_i hg
        split
        · exact .refl _
        · exact ⟨rfl, rfl, rfl, rfl, hg.le, fun a _ => ⟨by dsimp only; linarith, le_rfl⟩⟩
      · rename_i hg
        exact ⟨rfl, rfl, rfl, rfl, le_rfl, fun a _ => ⟨by dsimp only; linarith, not_lt.mp hg⟩⟩

theorem touches_addliqy (h : Heap K) (i : Nat) (dy : K) (e : Bool) : Touches h (addliqy h i dy e).2 i :=
  touches_put (.inl rfl) (evolves_addliqy _ _ _)

theorem touches_credit (h : Heap K) (i : Nat) (dx : K) : Touches h (credit h i dx).2 i := by
  unfold credit
  split
  · exact .refl _ _
  · rename_i j hj
    exact touches_put (.inr hj) (evolves_addliqy _ _ _)

theorem touches_finish (h : Heap K) (i : Nat) (dy ynew : K) (ex xp : Bool) (yold : K) (p q : Option K) (h0 : 0 ≤ ynew)
    (h1 : ex = true → ynew ≤ (h i).curve.yint) : Touches h (finish h i dy ynew ex xp yold p q).2 i := by
  unfold finish
  split
  · exact .refl _ _
  · exact .refl _ _
  · rename_i dx _
    dsimp only
    have ha : Touches h (if ex then put h i { (h i).curve with y := ynew } else h) i := by
      split
      · rename_i he
        exact touches_put (.inl rfl) ⟨rfl, rfl, rfl, rfl, le_rfl, fun _ _ => ⟨h0, h1 he⟩⟩
      · exact .refl _ _
    have hb := ha.trans (touches_credit _ i dx)
    split
    · exact hb
    · split <;> exact hb

theorem touches_core (h : Heap K) (i : Nat) (dy : K) (ex ec r : Bool) (hy : 0 ≤ (h i).curve.yint) :
    Touches h (core h i dy ex ec r).2 i := by
  have he := eps_pos (K := K)
  unfold core
  dsimp only
  split
  · exact .refl _ _
  · exact .refl _ _
  · split
    · exact .refl _ _
    · split
      · rename_i hg
        split
        · exact .refl _ _
        · cases ex
          · exact touches_finish _ _ _ _ _ _ _ _ _ (hy.trans hg.le) (by simp)
          · have ha : Touches h (put h i { (h i).curve with yint := (h i).curve.y - dy }) i :=
              touches_put (.inl rfl) ⟨rfl, rfl, rfl, rfl, hg.le, fun a b => ⟨a, b.trans hg.le⟩⟩
            refine ha.trans (touches_finish _ _ _ _ _ _ _ _ _ (hy.trans hg.le) ?_)
            intro _
            simp [put_same]
      · rename_i hg
        refine touches_finish _ _ _ _ _ _ _ _ _ ?_ ?_
        · split
          · exact le_rfl
          · rename_i hn; exact not_lt.mp hn
        · intro _
          split
          · exact hy
          · exact not_lt.mp hg

theorem touches_selly (h : Heap K) (i : Nat) (dy : K) (ex an ec r : Bool) (hy : 0 ≤ (h i).curve.yint) :
    Touches h (selly h i dy ex an ec r).2 i := by
  unfold selly
  split
  · exact .refl _ _
  · dsimp only
    generalize (if dy < 0 ∧ (!an) = true then 0 else dy) = d
    split
    · exact touches_core _ _ _ _ _ _ hy
    · exact touches_core _ _ _ _ _ _ hy

theorem touches_buyx (h : Heap K) (i : Nat) (dx : K) (ex an ec r : Bool) (hy : 0 ≤ (h i).curve.yint) :
    Touches h (buyx h i dx ex an ec r).2 i := by
  unfold buyx
  split
  · exact .refl _ _
  · exact .refl _ _
  · rename_i dy _
    dsimp only
    have := touches_selly h i dy ex an ec r hy
    split <;> exact this

/-- The object a call is made on. -/
def Op.target : Op K → Nat
  | .setId i _ => i
  | .setLinked i _ => i
  | .addliqy i _ _ => i
  | .selly i _ _ _ _ _ => i
  | .buyx i _ _ _ _ _ => i

/-- A call, successful or not and with any arguments, changes no object but its target and the one the target is linked to; tokens and price
ranges of all objects stay; capacities never shrink; holdings stay between zero and capacity. -/
theorem C152_frame (h : Heap K) (op : Op K) (hy : 0 ≤ (h op.target).curve.yint) :
    (∀ k, k ≠ op.target → (h op.target).link ≠ some k → step h op k = h k) ∧
      ∀ k, Evolves (h k).curve (step h op k).curve := by
  cases op with
  | setId i id =>
    unfold step setId
    dsimp only [Op.target] at *
    split
    · exact ⟨fun _ _ _ => rfl, fun _ => .refl _⟩
    · refine ⟨fun k p _ => by simp [p], fun k => ?_⟩
      by_cases hk : k = i
      · subst hk; simp [Evolves.refl]
      · simp [hk, Evolves.refl]
  | setLinked i j =>
    unfold step setLinked
    dsimp only [Op.target] at *
    split
    · exact ⟨fun _ _ _ => rfl, fun _ => .refl _⟩
    · refine ⟨fun k p _ => by simp [p], fun k => ?_⟩
      by_cases hk : k = i
      · subst hk; simp [Evolves.refl]
      · simp [hk, Evolves.refl]
  | addliqy i dy e => exact ⟨(touches_addliqy h i dy e).frame, (touches_addliqy h i dy e).evolves⟩
  | selly i dy ex an ec r => exact ⟨(touches_selly h i dy ex an ec r hy).frame, (touches_selly h i dy ex an ec r hy).evolves⟩
  | buyx i dx ex an ec r => exact ⟨(touches_buyx h i dx ex an ec r hy).frame, (touches_buyx h i dx ex an ec r hy).evolves⟩

theorem step_id (h : Heap K) (op : Op K) (hy : 0 ≤ (h op.target).curve.yint) (k n : Nat) (hk : (h k).id = some n) :
    (step h op k).id = some n := by
  cases op with
  | setId i id =>
    unfold step setId
    dsimp only
    split
    · exact hk
    · rename_i hn
      have : k ≠ i := by rintro rfl; rw [hn] at hk; cases hk
      simpa [this] using hk
  | setLinked i j =>
    unfold step setLinked
    dsimp only
    split
    · exact hk
    · by_cases h2 : k = i
      · subst h2; simpa using hk
      · simpa [h2] using hk
  | addliqy i dy e => exact ((touches_addliqy h i dy e).id k).trans hk
  | selly i dy ex an ec r => exact ((touches_selly h i dy ex an ec r hy).id k).trans hk
  | buyx i dx ex an ec r => exact ((touches_buyx h i dx ex an ec r hy).id k).trans hk

theorem step_link (h : Heap K) (op : Op K) (hy : 0 ≤ (h op.target).curve.yint) (k n : Nat) (hk : (h k).link = some n) :
    (step h op k).link = some n := by
  cases op with
  | setLinked i j =>
    unfold step setLinked
    dsimp only
    split
    · exact hk
    · rename_i hn
      have : k ≠ i := by rintro rfl; rw [hn] at hk; cases hk
      simpa [this] using hk
  | setId i id =>
    unfold step setId
    dsimp only
    split
    · exact hk
    · by_cases h2 : k = i
      · subst h2; simpa using hk
      · simpa [h2] using hk
  | addliqy i dy e => exact ((touches_addliqy h i dy e).link k).trans hk
  | selly i dy ex an ec r => exact ((touches_selly h i dy ex an ec r hy).link k).trans hk
  | buyx i dx ex an ec r => exact ((touches_buyx h i dx ex an ec r hy).link k).trans hk

/-- Whatever is called on whichever objects, however they are linked: identifiers and links once set stay, valid orders stay valid, and tokens
and price ranges stay. -/
theorem C152_history (h : Heap K) (ops : List (Op K)) (hy : ∀ op ∈ ops, 0 ≤ (h op.target).curve.yint) (k : Nat) :
    (∀ n, (h k).id = some n → (run h ops k).id = some n) ∧ (∀ n, (h k).link = some n → (run h ops k).link = some n) ∧
      Evolves (h k).curve (run h ops k).curve ∧ (Sound (h k).curve → Sound (run h ops k).curve) := by
  suffices H : (∀ n, (h k).id = some n → (run h ops k).id = some n) ∧ (∀ n, (h k).link = some n → (run h ops k).link = some n) ∧
      Evolves (h k).curve (run h ops k).curve from ⟨H.1, H.2.1, H.2.2, H.2.2.sound⟩
  induction ops generalizing h with
  | nil => exact ⟨fun _ a => a, fun _ a => a, .refl _⟩
  | cons op ops ih =>
    have h0 := hy op (List.mem_cons_self ..)
    have he := (C152_frame h op h0).2
    obtain ⟨a, b, c⟩ := ih (step h op) (fun o ho => (hy o (List.mem_cons_of_mem _ ho)).trans (he _).cap)
    exact ⟨fun n hn => a n (step_id h op h0 k n hn), fun n hn => b n (step_link h op h0 k n hn), (he k).trans c⟩

/-- Identifier and link are set by the first call and refused by every later one, which changes nothing; the identifier of the linked order is
read off at the time of asking. -/
theorem C152_once (h : Heap K) (i n : Nat) :
    ((h i).id = none → (setId h i n).1 = .ok () ∧ ((setId h i n).2 i).id = some n) ∧
      ((h i).id ≠ none → setId h i n = (.error .value, h)) ∧
      ((h i).link = none → (setLinked h i n).1 = .ok () ∧ lid (setLinked h i n).2 i = (h n).id) ∧
      ((h i).link ≠ none → setLinked h i n = (.error .value, h)) ∧
      ((h i).link = none → (h n).id = none → ∀ m, lid (setId (setLinked h i n).2 n m).2 i = some m) := by
  refine ⟨?_, ?_, ?_, ?_, ?_⟩
  · intro hn; unfold setId; rw [hn]; simp
  · intro hn; unfold setId
    cases hh : (h i).id with
    | none => exact absurd hh hn
    | some _ => rfl
  · intro hn; unfold setLinked lid; rw [hn]
    by_cases hni : n = i
    · subst hni; simp
    · simp [hni]
  · intro hn; unfold setLinked
    cases hh : (h i).link with
    | none => exact absurd hh hn
    | some _ => rfl
  · intro hn hd m; unfold setLinked; rw [hn]
    by_cases hni : n = i
    · subst hni; simp [setId, lid, hd]
    · have hin : i ≠ n := fun e => hni e.symm
      simp [setId, lid, hd, hni, hin]

/-! ## Orders that are not linked to themselves -/

/-- The order and the one it is linked to, as in the model without references. -/
def view (h : Heap K) (i : Nat) : World K := ⟨(h i).curve, (h i).link.map fun j => (h j).curve⟩

/-- Specification: the objects after the order and the one it is linked to have become those of `w`. -/
def Holds (h h' : Heap K) (i : Nat) (w : World K) : Prop := Touches h h' i ∧ view h' i = w

theorem credit_view (h : Heap K) (i : Nat) (hs : (h i).link ≠ some i) (dx : K) :
    (credit h i dx).1 = (creditLinked (view h i) dx).1 ∧ view (credit h i dx).2 i = (creditLinked (view h i) dx).2 := by
  unfold credit creditLinked view
  cases hl : (h i).link with
  | none => simp [hl]
  | some j =>
    have hij : i ≠ j := by rintro rfl; exact hs hl
    simp only [Option.map_some, addliqy]
    rw [put_other _ _ hij, hl]
    simp [put_same]

theorem view_put (h : Heap K) (i : Nat) (hs : (h i).link ≠ some i) (c : UICurve K) :
    view (put h i c) i = { view h i with self := c } := by
  unfold view
  cases hl : (h i).link with
  | none => simp [put_same, hl]
  | some j =>
    have hij : j ≠ i := by rintro rfl; exact hs hl
    simp [put_same, put_other _ _ hij, hl]

theorem finish_view (h : Heap K) (i : Nat) (hs : (h i).link ≠ some i) (dy ynew : K) (ex xp : Bool) (yold : K) (p q : Option K) :
    (finish h i dy ynew ex xp yold p q).1 = (sellyFinish (view h i) dy ynew ex xp yold p q).1 ∧
      view (finish h i dy ynew ex xp yold p q).2 i = (sellyFinish (view h i) dy ynew ex xp yold p q).2 := by
  unfold finish sellyFinish
  have e0 : (view h i).self = (h i).curve := rfl
  rw [e0]
  rcases (h i).curve.dxfromdyF dy false true with e | (_ | dx)
  · exact ⟨rfl, rfl⟩
  · exact ⟨rfl, rfl⟩
  · dsimp only
    have e1 : view (if ex then put h i { (h i).curve with y := ynew } else h) i =
        if ex then { view h i with self := { (h i).curve with y := ynew } } else view h i := by
      split
      · exact view_put h i hs _
      · rfl
    have hs1 : ((if ex then put h i { (h i).curve with y := ynew } else h) i).link ≠ some i := by
      split
      · rw [put_link]; exact hs
      · exact hs
    obtain ⟨c1, c2⟩ := credit_view _ i hs1 dx
    rw [e1] at c1 c2
    rw [← c1]
    have e2 : ((credit (if ex then put h i { (h i).curve with y := ynew } else h) i dx).2 i).curve =
        (creditLinked (if ex then { view h i with self := { (h i).curve with y := ynew } } else view h i) dx).2.self := by
      rw [← c2]; rfl
    rw [e2]
    generalize (credit (if ex then put h i { (h i).curve with y := ynew } else h) i dx).1 = r
    rcases r with e | ⟨⟩
    · exact ⟨rfl, c2⟩
    · dsimp only
      generalize (creditLinked (if ex then { view h i with self := { (h i).curve with y := ynew } } else view h i) dx).2.self.xfromyF
        ynew true false = x
      rcases x with e | x
      · exact ⟨rfl, c2⟩
      · exact ⟨rfl, c2⟩

theorem core_view (h : Heap K) (i : Nat) (hs : (h i).link ≠ some i) (dy : K) (ex ec r : Bool) :
    (core h i dy ex ec r).1 = (sellyCore (view h i) dy ex ec r).1 ∧
      view (core h i dy ex ec r).2 i = (sellyCore (view h i) dy ex ec r).2 := by
  unfold core sellyCore
  have e0 : (view h i).self = (h i).curve := rfl
  rw [e0]
  dsimp only
  generalize (h i).curve.pMarg = a
  generalize (h i).curve.pMargF dy false false = b
  rcases a with a | a
  · exact ⟨rfl, rfl⟩
  · rcases b with b | b
    · exact ⟨rfl, rfl⟩
    · dsimp only
      split
      · exact ⟨rfl, rfl⟩
      · split
        · split
          · exact ⟨rfl, rfl⟩
          · cases ex
            · exact finish_view h i hs _ _ _ _ _ _ _
            · have := finish_view (put h i { (h i).curve with yint := (h i).curve.y - dy }) i (by rw [put_link]; exact hs) dy
                ((h i).curve.y - dy) true true (h i).curve.y a b
              rw [view_put h i hs] at this
              exact this
        · exact finish_view h i hs _ _ _ _ _ _ _

/-- On an order that is not linked to itself, a sale does to it and to the one it is linked to what the theorems about one order and its linked
order say (C16-C20, C67, C68 and others), with the same report; all other objects are left alone. -/
theorem C152_sale (h : Heap K) (i : Nat) (hs : (h i).link ≠ some i) (dy : K) (ex an ec r : Bool) (hy : 0 ≤ (h i).curve.yint) :
    (selly h i dy ex an ec r).1 = (UICurve.selly (view h i) dy ex an ec r).1 ∧
      Holds h (selly h i dy ex an ec r).2 i (UICurve.selly (view h i) dy ex an ec r).2 := by
  have ht := touches_selly h i dy ex an ec r hy
  suffices H : (selly h i dy ex an ec r).1 = (UICurve.selly (view h i) dy ex an ec r).1 ∧
      view (selly h i dy ex an ec r).2 i = (UICurve.selly (view h i) dy ex an ec r).2 from ⟨H.1, ht, H.2⟩
  unfold selly UICurve.selly
  split
  · exact ⟨rfl, rfl⟩
  · dsimp only
    generalize (if dy < 0 ∧ (!an) = true then 0 else dy) = d
    split
    · exact core_view h i hs _ _ _ _
    · exact core_view h i hs _ _ _ _

/-- Buying changes the objects like the pair of an order and the one it is linked to, and reports the same. -/
theorem C152_buy (h : Heap K) (i : Nat) (hs : (h i).link ≠ some i) (dx : K) (ex an ec r : Bool) (hy : 0 ≤ (h i).curve.yint) :
    (buyx h i dx ex an ec r).1 = (UICurve.buyx (view h i) dx ex an ec r).1 ∧
      view (buyx h i dx ex an ec r).2 i = (UICurve.buyx (view h i) dx ex an ec r).2 := by
  unfold buyx UICurve.buyx
  have hv : (view h i).self = (h i).curve := rfl
  rw [hv]
  cases (h i).curve.dyfromdxF dx false true with
  | error e => exact ⟨rfl, rfl⟩
  | ok d =>
    cases d with
    | none => exact ⟨rfl, rfl⟩
    | some dy =>
      obtain ⟨e1, _, e2⟩ := C152_sale h i hs dy ex an ec r hy
      dsimp only
      rw [e1]
      cases (UICurve.selly (view h i) dy ex an ec r).1 with
      | error e => exact ⟨rfl, e2⟩
      | ok o => cases o <;> exact ⟨rfl, e2⟩

/-- Adding liquidity to an order adds the amount to its holdings. Beyond its capacity this is refused and changes nothing, unless the order may be
expanded, which sets the capacity to the holdings. -/
theorem C152_added (h : Heap K) (i : Nat) (hs : Sound (h i).curve) (dy : K) (h0 : 0 ≤ dy) (ec : Bool) :
    let r := addliqy h i dy ec
    (ec = false → (h i).curve.yint < (h i).curve.y + dy → r = (.error .value, h)) ∧
    ((ec = true ∨ (h i).curve.y + dy ≤ (h i).curve.yint) → r.1 = .ok () ∧ (r.2 i).curve.y = (h i).curve.y + dy ∧
      (r.2 i).curve.yint = max (h i).curve.yint ((h i).curve.y + dy)) := by
  intro r
  have hput : put h i (h i).curve = h := by
    unfold put
    exact Function.update_eq_self i h
  have hnn : ¬ dy < 0 := not_lt.mpr h0
  constructor
  · intro he hgt
    show ((((h i).curve.addliqy dy ec).1, put h i ((h i).curve.addliqy dy ec).2) : Py Unit × Heap K) = _
    have : (h i).curve.addliqy dy ec = (.error .value, (h i).curve) := by
      unfold UICurve.addliqy
      rw [if_neg hnn, pMarg_ok hs]
      simp [hgt, he]
    rw [this, hput]
  · intro hc
    obtain ⟨c', e, _, e1, e2, _⟩ := addliqy_ok hs h0
    have : (h i).curve.addliqy dy ec = (.ok (), c') := by
      rcases hc with rfl | hc
      · exact e
      · rw [← e]
        unfold UICurve.addliqy
        rw [if_neg hnn, pMarg_ok hs]
        simp [not_lt.mpr hc, hnn]
    show ((h i).curve.addliqy dy ec).1 = .ok () ∧ (put h i ((h i).curve.addliqy dy ec).2 i).curve.y = _ ∧
      (put h i ((h i).curve.addliqy dy ec).2 i).curve.yint = _
    rw [this]
    refine ⟨rfl, ?_, ?_⟩ <;> simp [put, e1, e2]

/-- Specification: what the orders of a group hold of a token. -/
def holdings (h : Heap K) (I : Finset Nat) (t : Str) : K := ∑ k ∈ I, if (h k).curve.tkn = t then (h k).curve.y else 0

/-- Specification: a group of orders each of which is linked to another one of the group, selling another token. -/
def Paired (h : Heap K) (I : Finset Nat) : Prop :=
  ∀ k ∈ I, Sound (h k).curve ∧ ∃ j ∈ I, (h k).link = some j ∧ (h j).curve.tkn ≠ (h k).curve.tkn

theorem holdings_two (h h' : Heap K) (I : Finset Nat) (i j : Nat) (hi : i ∈ I) (hj : j ∈ I) (hij : j ≠ i) (t : Str)
    (ht : ∀ k, (h' k).curve.tkn = (h k).curve.tkn) (hf : ∀ k, k ≠ i → k ≠ j → h' k = h k) :
    holdings h' I t = holdings h I t + (if (h i).curve.tkn = t then (h' i).curve.y - (h i).curve.y else 0) +
      (if (h j).curve.tkn = t then (h' j).curve.y - (h j).curve.y else 0) := by
  unfold holdings
  have hj' : j ∈ I.erase i := Finset.mem_erase.mpr ⟨hij, hj⟩
  rw [← Finset.add_sum_erase I _ hi, ← Finset.add_sum_erase (I.erase i) _ hj', ← Finset.add_sum_erase I _ hi,
    ← Finset.add_sum_erase (I.erase i) _ hj']
  have : ∑ k ∈ (I.erase i).erase j, (if (h' k).curve.tkn = t then (h' k).curve.y else 0) =
      ∑ k ∈ (I.erase i).erase j, (if (h k).curve.tkn = t then (h k).curve.y else 0) := by
    refine Finset.sum_congr rfl fun k hk => ?_
    rw [hf k (Finset.ne_of_mem_erase (Finset.mem_of_mem_erase hk)) (Finset.ne_of_mem_erase hk)]
  rw [this, ht i, ht j]
  split_ifs <;> ring

/-- One sale in such a group: the group's holdings of the token sold fall by what the report says was sold, those of the token received rise by
what it says was received, and nothing else changes; the group stays such a group. -/
theorem C152_conserved (h : Heap K) (I : Finset Nat) (hp : Paired h I) (i : Nat) (hi : i ∈ I) (dy : K) (hc : Clear (h i).curve dy)
    (an ec r : Bool) :
    let s := selly h i dy true an ec r
    Paired s.2 I ∧ ∃ j ∈ I, (h i).link = some j ∧ ∀ t, holdings s.2 I t = holdings h I t -
      (if (h i).curve.tkn = t then (flow s.1).1 else 0) + (if (h j).curve.tkn = t then (flow s.1).2 else 0) := by
  intro s
  obtain ⟨hsi, j, hj, hl, htk⟩ := hp i hi
  have hij : j ≠ i := by rintro rfl; exact htk rfl
  have hself : (h i).link ≠ some i := by rw [hl]; simpa using hij
  obtain ⟨e1, ht, e2⟩ := C152_sale h i hself dy true an ec r hsi.hyint.le
  have hv : view h i = ⟨(h i).curve, some (h j).curve⟩ := by simp [view, hl]
  obtain ⟨res, a1, b1, es, _, _, y1, y2, _⟩ := C67_step (h i).curve (h j).curve hsi (hp j hj).1 dy hc an ec r
  rw [hv, es] at e1 e2
  dsimp only at e1 e2
  have hv' : view s.2 i = ⟨(s.2 i).curve, some (s.2 j).curve⟩ := by
    have : (s.2 i).link = some j := (ht.link i).trans hl
    simp [view, this]
  rw [hv'] at e2
  simp only [World.mk.injEq, Option.some.injEq] at e2
  refine ⟨?_, j, hj, hl, fun t => ?_⟩
  · intro k hk
    obtain ⟨sk, m, hm, lm, tm⟩ := hp k hk
    refine ⟨(ht.evolves k).sound sk, m, hm, (ht.link k).trans lm, ?_⟩
    rw [(ht.evolves m).tkn, (ht.evolves k).tkn]; exact tm
  · rw [holdings_two h s.2 I i j hi hj hij t (fun k => (ht.evolves k).tkn)
      (fun k p q => ht.frame k p (by rw [hl]; simpa using fun e => q e.symm)), e2.1, e2.2, y1, y2, e1]
    split_ifs <;> ring

/-- A sequence of sales on orders of a group, with the net reported inflow of every token. -/
inductive Sales (I : Finset Nat) : Heap K → (Str → K) → Heap K → Prop
  | nil (h) : Sales I h (fun _ => 0) h
  | cons (h i j dy an ec r f h') : i ∈ I → (h i).link = some j → Clear (h i).curve dy →
      Sales I (selly h i dy true an ec r).2 f h' →
      Sales I h (fun t => f t - (if (h i).curve.tkn = t then (flow (selly h i dy true an ec r).1).1 else 0) +
        (if (h j).curve.tkn = t then (flow (selly h i dy true an ec r).1).2 else 0)) h'

/-- Over any sequence of sales the group's holdings of every token are the initial ones plus the net reported inflow, whichever of the orders
share a linked order, and in cycles of links of any length. -/
theorem C152_ledger (I : Finset Nat) (h h' : Heap K) (f : Str → K) (hs : Sales I h f h') (hp : Paired h I) :
    Paired h' I ∧ ∀ t, holdings h' I t = holdings h I t + f t := by
  induction hs with
  | nil h => exact ⟨hp, fun t => (add_zero _).symm⟩
  | cons h i j dy an ec r f h' hi hl hc _ ih =>
    obtain ⟨p1, j', _, hl', e⟩ := C152_conserved h I hp i hi dy hc an ec r
    rw [hl] at hl'
    cases hl'
    obtain ⟨q1, q2⟩ := ih p1
    exact ⟨q1, fun t => by rw [q2, e]; ring⟩

/-- Three orders: two sell USDC and share the linked order, which sells ETH and is linked to the first. -/
def trio : Heap ℚ := fun k =>
  if k = 0 then ⟨sampleCurve, some 10, some 1⟩ else if k = 1 then ⟨sampleLinked, some 11, some 0⟩ else ⟨sampleCurve, none, some 1⟩

example : Paired trio {0, 1, 2} ∧ Clear (trio 2).curve 25 ∧ holdings trio {0, 1, 2} "USDC".toList = 100 ∧
    holdings (selly trio 2 25).2 {0, 1, 2} "USDC".toList = 75 ∧
    holdings (selly trio 2 25).2 {0, 1, 2} "ETH".toList = 10 + 40 / 3 ∧ (selly trio 2 25).2 0 = trio 0 := by
  refine ⟨?_, ⟨by norm_num, .inl (by decide +kernel)⟩, by decide +kernel, by decide +kernel, by decide +kernel, by decide +kernel⟩
  intro k hk
  simp only [Finset.mem_insert, Finset.mem_singleton] at hk
  rcases hk with rfl | rfl | rfl
  · exact ⟨sample_sound, 1, by decide, rfl, by decide +kernel⟩
  · exact ⟨sampleLinked_sound, 0, by decide, rfl, by decide +kernel⟩
  · exact ⟨sample_sound, 1, by decide, rfl, by decide +kernel⟩

/-! ## Orders linked to themselves -/

/-- An order linked to itself pays the amount it receives, which is of the other token, into its own holdings. -/
theorem C152_self (h : Heap K) (i : Nat) (hs : Sound (h i).curve) (hl : (h i).link = some i) (dy : K) (h0 : EPS ≤ dy)
    (h1 : dy ≤ (h i).curve.y) (an ec r : Bool) :
    ∃ s h', selly h i dy true an ec r = (.ok (some s), h') ∧ s.dy = dy ∧ (h i).curve.dxfromdyF dy = .ok (some s.dx) ∧
      s.y = (h i).curve.y - dy ∧ (h' i).curve.y = (h i).curve.y - dy + s.dx ∧ Sound (h' i).curve := by
  have he := eps_pos (K := K)
  have hd0 : 0 ≤ dy := he.le.trans h0
  have hn : 0 ≤ (h i).curve.y - dy := sub_nonneg.mpr h1
  have hdx0 : 0 ≤ dy * ((h i).curve.yint ^ 2 / (((h i).curve.S * (h i).curve.y + (h i).curve.B * (h i).curve.yint) *
      ((h i).curve.S * (h i).curve.y + (h i).curve.B * (h i).curve.yint - (h i).curve.S * dy))) := by
    have := hs.m_pos; have := hs.n_pos h1
    positivity
  have hdx := dxfromdyF_ok hs h1 false true (by simp)
  have hdx' := dxfromdyF_ok hs h1 true false (fun _ => hd0)
  have hss := sound_sub hs hd0 h1
  obtain ⟨c', ec', sc', yc', zc', _⟩ := addliqy_ok hss hdx0
  have hz : (h i).curve.y - dy ≤ c'.yint := by
    rw [zc']; exact le_max_of_le_left (by dsimp only; linarith [hs.hy])
  have hx := xfromyF_ok sc' hn hz true false
  have hcore : selly h i dy true an ec r = core h i dy true ec r := by
    unfold selly
    rw [if_neg (fun hh => absurd hh.1 (not_lt.mpr hd0))]
    dsimp only
    have e : (if dy < 0 ∧ (!an) = true then 0 else dy) = dy := if_neg (fun hh => absurd hh.1 (not_lt.mpr hd0))
    rw [e, if_neg]
    rw [abs_of_nonneg hd0]; exact not_lt.mpr h0
  rw [hcore]
  unfold core
  dsimp only
  rw [pMarg_ok hs, pMargF_ok hs h1 false false (by simp)]
  dsimp only
  rw [if_neg (by linarith), if_neg (by have := hs.hy; linarith), if_neg (by linarith)]
  unfold finish
  rw [hdx]
  dsimp only
  unfold credit
  rw [if_pos rfl, put_link, hl]
  dsimp only [addliqy]
  rw [put_same]
  dsimp only
  rw [ec']
  dsimp only
  rw [put_same]
  dsimp only
  rw [hx]
  exact ⟨_, _, rfl, rfl, hdx', rfl, by rw [put_same, yc'], by rw [put_same]; exact sc'⟩

/-- The holdings after a sale are not those in the report: the order linked to itself sells 25 of 50 USDC for 40/3 ETH and then holds 38 1/3
USDC. `state` sets such
links (carbon/simulators/carbon_simulator.py:1157) for orders added by `_add_replace_single_order` (317-413, not public and only with
`exclude_future` off) without a linked order, of which its documentation says that the tokens received disappear. -/
theorem C152_self_violated : ∃ (h : Heap ℚ) (i : Nat) (s : Sale ℚ) (h' : Heap ℚ), Sound (h i).curve ∧
    (setLinked h i i).1 = .ok () ∧ selly (setLinked h i i).2 i 25 = (.ok (some s), h') ∧ s.y = 25 ∧ s.dx = 40 / 3 ∧
    (h' i).curve.y = 25 + 40 / 3 := by
  let h : Heap ℚ := fun _ => ⟨sampleCurve, none, none⟩
  obtain ⟨s, h', e, e1, e2, e3, e4, _⟩ := C152_self (setLinked h 0 0).2 0 (by exact sample_sound) rfl 25 (by decide +kernel)
    (by decide +kernel) true false false
  have ed : (((setLinked h 0 0).2 0).curve.dxfromdyF 25) = .ok (some (40 / 3)) := by decide +kernel
  have ey : ((setLinked h 0 0).2 0).curve.y = 50 := by decide +kernel
  rw [ed] at e2
  simp only [Except.ok.injEq, Option.some.injEq] at e2
  refine ⟨h, 0, s, h', sample_sound, rfl, e, ?_, e2.symm, ?_⟩
  · rw [e3, ey]; norm_num
  · rw [e4, ey, ← e2]; norm_num

/-! ## Comparing orders -/

/-- Specification: two objects with the same contents, apart from the links. -/
def Same (a b : Cell K) : Prop :=
  (a.curve.pair.tknb = b.curve.pair.tknb ∧ a.curve.pair.tknq = b.curve.pair.tknq ∧ a.curve.pair.displayOrig = b.curve.pair.displayOrig) ∧
    a.curve.tkn = b.curve.tkn ∧ a.curve.B = b.curve.B ∧ a.curve.S = b.curve.S ∧
    a.curve.yint = b.curve.yint ∧ a.curve.y = b.curve.y ∧ a.id = b.id

theorem pairEq_iff (p q : CarbonPair) : pairEq p q = true ↔ p.tknb = q.tknb ∧ p.tknq = q.tknq ∧ p.displayOrig = q.displayOrig := by
  unfold pairEq
  simp [and_assoc]

theorem eq_succ (n : Nat) (h : Heap K) (i j : Nat) :
    eq (n + 1) h i j = (if pairEq (h i).curve.pair (h j).curve.pair && decide ((h i).curve.tkn = (h j).curve.tkn) &&
        decide ((h i).curve.B = (h j).curve.B) && decide ((h i).curve.S = (h j).curve.S) &&
        decide ((h i).curve.yint = (h j).curve.yint) && decide ((h i).curve.y = (h j).curve.y) &&
        decide ((h i).id = (h j).id) then
      match (h i).link, (h j).link with
      | none, none => .ok true
      | some k, some l => if k = l then .ok true else eq n h k l
      | _, _ => .ok false
    else .ok false) := rfl

theorem eq_of_same {h : Heap K} {i j : Nat} (hs : Same (h i) (h j)) (n : Nat) :
    eq (n + 1) h i j = (match (h i).link, (h j).link with
      | none, none => .ok true
      | some k, some l => if k = l then .ok true else eq n h k l
      | _, _ => .ok false) := by
  obtain ⟨a, b, c, d, e, f, g⟩ := hs
  rw [eq_succ, if_pos]
  simp [(pairEq_iff _ _).mpr a, b, c, d, e, f, g]

/-- Orders without links are equal just if their contents are; orders with the same link likewise, and every order equals itself. -/
theorem C152_eq_partial (h : Heap K) (i j n : Nat) (hl : (h i).link = (h j).link) :
    ∃ b, eq (n + 1) h i j = .ok b ∧ (b = true ↔ Same (h i) (h j)) := by
  by_cases hs : Same (h i) (h j)
  · refine ⟨true, ?_, by simp [hs]⟩
    rw [eq_of_same hs, hl]
    cases (h j).link <;> simp
  · refine ⟨false, ?_, by simp [hs]⟩
    rw [eq_succ, if_neg]
    intro hh
    apply hs
    simp only [Bool.and_eq_true, decide_eq_true_eq] at hh
    obtain ⟨⟨⟨⟨⟨⟨a, b⟩, c⟩, d⟩, e⟩, f⟩, g⟩ := hh
    exact ⟨(pairEq_iff _ _).mp a, b, c, d, e, f, g⟩

/-- Comparing two copies of a pair of mutually linked orders never ends: it raises for every depth of the stack. -/
theorem C152_eq_diverges (h : Heap K) (a b a' b' : Nat) (h1 : (h a).link = some b) (h2 : (h b).link = some a)
    (h3 : (h a').link = some b') (h4 : (h b').link = some a') (ha : a ≠ a') (hb : b ≠ b') (sa : Same (h a) (h a'))
    (sb : Same (h b) (h b')) (n : Nat) :
    eq n h a a' = .error (.custom "RecursionError") ∧ eq n h b b' = .error (.custom "RecursionError") := by
  induction n with
  | zero => exact ⟨rfl, rfl⟩
  | succ n ih =>
    refine ⟨?_, ?_⟩
    · rw [eq_of_same sa, h1, h3]; simp only [hb, if_false]; exact ih.2
    · rw [eq_of_same sb, h2, h4]; simp only [ha, if_false]; exact ih.1

/-- Two readings of the positions of a simulator: the same two linked orders, twice. -/
def twice : Heap ℚ := fun k =>
  match k with
  | 0 => ⟨sampleCurve, some 0, some 1⟩
  | 1 => ⟨sampleLinked, some 1, some 0⟩
  | 2 => ⟨sampleCurve, some 0, some 3⟩
  | _ => ⟨sampleLinked, some 1, some 2⟩

/-- Orders with the same contents whose comparison has no result. -/
theorem C152_eq_violated : Same (twice 0) (twice 2) ∧ ∀ n, eq n twice 0 2 = .error (.custom "RecursionError") :=
  ⟨by unfold Same; decide +kernel, fun n => (C152_eq_diverges twice 0 1 2 3 rfl rfl rfl rfl (by decide) (by decide)
    (by unfold Same; decide +kernel) (by unfold Same; decide +kernel) n).1⟩

example : eq 5 trio 0 2 = .ok false ∧ (trio 0).link = (trio 2).link ∧ (trio 0).link ≠ some 0 ∧
    (∀ op ∈ [Op.selly 0 25 true true false false, .setId 2 7, .buyx 1 1 true true false false], 0 ≤ (trio op.target).curve.yint) ∧
    (run trio [.selly 0 25 true true false false, .setId 2 7, .buyx 1 1 true true false false] 2).id = some 7 ∧
    (run trio [.selly 0 25 true true false false] 0).curve.y = 25 := by
  refine ⟨by decide +kernel, rfl, by decide +kernel, ?_, by decide +kernel, by decide +kernel⟩
  decide +kernel

end Carbon.UICurve.Heap
