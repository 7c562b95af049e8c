import Verif.Helpers.SharedVar
import Mathlib.Data.List.Basic
import Mathlib.Data.Rat.Defs

/-!
# C121: shared variables
-/

namespace Carbon.Prop.SharedVar

open Carbon.Shared

variable {K : Type}

/-- Whether a statement assigns to a variable, so that it may refer to something else afterwards. In-place operators assign only if the
variable holds a plain number. -/
def Assigns (v : Nat) : Stmt K → Prop
  | .make w _ => v = w
  | .lit w _ => v = w
  | .alias w _ => v = w
  | .setval _ _ => False
  | .aug _ _ _ => False
  | .bin w _ _ _ => v = w

/-- Two variables refer to the same object. -/
def Shares (s : State K) (v w : Nat) : Prop := ∃ l, s.env v = some (.ref l) ∧ s.env w = some (.ref l)

theorem bind_env (s : State K) (v w : Nat) (x : Val K) : (s.bind v x).env w = if w = v then some x else s.env w := rfl

theorem store_env {s : State K} {v w : Nat} (h : w ≠ v) (q : Obj K ⊕ K) : (s.store v q).env w = s.env w := by
  cases q <;> exact if_neg h

/-- A variable that refers to an object keeps referring to it unless it is assigned to. -/
theorem exec_env {s t : State K} {c : Stmt K} (h : exec s c = .ok t) {v l : Nat} (hv : s.env v = some (.ref l)) (hc : ¬Assigns v c) :
    t.env v = some (.ref l) := by
  cases c with
  | make w x => cases h; exact (if_neg hc).trans hv
  | lit w x => cases h; exact (if_neg hc).trans hv
  | «alias» w u =>
    simp only [exec, Py.bind_eq_ok] at h
    obtain ⟨x, hx, h⟩ := h
    cases h
    exact (if_neg hc).trans hv
  | setval w x =>
    simp only [exec, Py.bind_eq_ok] at h
    obtain ⟨r, hr, h⟩ := h
    cases r with
    | num y => cases h
    | ref m => cases h; exact hv
  | aug w op a =>
    simp only [exec, Py.bind_eq_ok] at h
    obtain ⟨r, hr, y, hy, o, ho, p, hp, q, hq, h⟩ := h
    have key : ∀ q', v ≠ w → t = s.store w q' → t.env v = some (.ref l) := by
      rintro q' hne rfl
      rw [store_env hne, hv]
    cases r with
    | num x =>
      have hne : v ≠ w := by
        rintro rfl
        unfold State.get at hr
        rw [hv] at hr
        cases hr
      exact key q hne (Except.ok.inj h).symm
    | ref m =>
      cases q with
      | inl n => cases h; exact hv
      | inr x =>
        simp only [State.deref, Py.bind_eq_ok] at ho
        obtain ⟨o', -, ho⟩ := ho
        cases ho
        cases p <;> simp only [binop, Py.bind_eq_ok] at hq <;> obtain ⟨_, _, hq⟩ := hq <;> cases hq
  | bin w a op b =>
    simp only [exec, Py.bind_eq_ok] at h
    obtain ⟨x, hx, y, hy, o, ho, p, hp, q, hq, h⟩ := h
    cases h
    rw [store_env hc, hv]

/-- C121: two variables that share an object show the same number after any program that assigns to neither of them, whatever is done
in place through these or other variables. -/
theorem C121_alias {s t : State K} {p : List (Stmt K)} (h : run s p = .ok t) {v w : Nat} (hs : Shares s v w)
    (hp : ∀ c ∈ p, ¬Assigns v c ∧ ¬Assigns w c) : Shares t v w ∧ t.number v = t.number w := by
  have key : Shares t v w := by
    induction p generalizing s with
    | nil => cases h; exact hs
    | cons c p ih =>
      simp only [run, Py.bind_eq_ok] at h
      obtain ⟨u, hu, h⟩ := h
      obtain ⟨l, h1, h2⟩ := hs
      exact ih h ⟨l, exec_env hu h1 (hp c (by simp)).1, exec_env hu h2 (hp c (by simp)).2⟩ fun c hc => hp c (by simp [hc])
  refine ⟨key, ?_⟩
  obtain ⟨l, h1, h2⟩ := key
  unfold State.number State.get
  rw [h1, h2]

/-- Every variable refers to an existing object. -/
def WF (s : State K) : Prop := ∀ v l, s.env v = some (.ref l) → l < s.heap.length

theorem wf_bind {s : State K} (h : WF s) {v : Nat} {x : Val K} (hx : ∀ l, x = .ref l → l < s.heap.length) : WF (s.bind v x) := by
  intro w l hl
  rw [bind_env] at hl
  split at hl
  · exact hx l (Option.some.inj hl)
  · exact h w l hl

theorem wf_new {s : State K} (h : WF s) {v : Nat} {o : Obj K} : WF (s.new v o) := by
  intro w l hl
  have e : (s.new v o).heap.length = s.heap.length + 1 := by simp [State.new, State.bind]
  rw [e]
  unfold State.new at hl
  rw [bind_env] at hl
  split at hl
  · cases hl; omega
  · exact Nat.lt_succ_of_lt (h w l hl)

theorem wf_store {s : State K} (h : WF s) {v : Nat} {q : Obj K ⊕ K} : WF (s.store v q) := by
  cases q with
  | inl o => exact wf_new h
  | inr x => exact wf_bind h fun l hl => (by cases hl)

theorem wf_exec {s t : State K} (hs : WF s) {c : Stmt K} (h : exec s c = .ok t) : WF t := by
  cases c with
  | make w x => cases h; exact wf_new hs
  | lit w x => cases h; exact wf_bind hs fun l hl => (by cases hl)
  | «alias» w u =>
    simp only [exec, Py.bind_eq_ok] at h
    obtain ⟨x, hx, h⟩ := h
    cases h
    refine wf_bind hs ?_
    rintro l rfl
    unfold State.get at hx
    split at hx
    · cases hx
    · rename_i y hy
      cases hx
      exact hs u l hy
  | setval w x =>
    simp only [exec, Py.bind_eq_ok] at h
    obtain ⟨r, hr, h⟩ := h
    cases r with
    | num y => cases h
    | ref m =>
      cases h
      intro v l hl
      rw [List.length_set]
      exact hs v l hl
  | aug w op a =>
    simp only [exec, Py.bind_eq_ok] at h
    obtain ⟨r, hr, y, hy, o, ho, p, hp, q, hq, h⟩ := h
    cases r with
    | num x => cases h; exact wf_store hs
    | ref m =>
      cases q with
      | inl n =>
        cases h
        intro v l hl
        rw [List.length_set]
        exact hs v l hl
      | inr x => cases h; exact wf_store hs
  | bin w a op b =>
    simp only [exec, Py.bind_eq_ok] at h
    obtain ⟨x, hx, y, hy, o, ho, p, hp, q, hq, h⟩ := h
    cases h
    exact wf_store hs

theorem wf_run {s t : State K} (hs : WF s) {p : List (Stmt K)} (h : run s p = .ok t) : WF t := by
  induction p generalizing s with
  | nil => cases h; exact hs
  | cons c p ih =>
    simp only [run, Py.bind_eq_ok] at h
    obtain ⟨u, hu, h⟩ := h
    exact ih (wf_exec hs hu) h

/-- The empty program state. -/
def empty : State K := ⟨[], fun _ => none⟩

theorem wf_empty : WF (empty : State K) := fun _ _ h => (by cases h)

/-- The variable a statement acts through. -/
def target : Stmt K → Nat
  | .make w _ => w
  | .lit w _ => w
  | .alias w _ => w
  | .setval w _ => w
  | .aug w _ _ => w
  | .bin w _ _ _ => w

theorem get_ok {s : State K} {v : Nat} {x : Val K} : s.get v = .ok x ↔ s.env v = some x := by
  unfold State.get
  cases h : s.env v <;> simp

theorem number_eq {s : State K} {v : Nat} {x : K} : s.number v = .ok x ↔
    s.env v = some (.num x) ∨ ∃ l o, s.env v = some (.ref l) ∧ s.heap[l]? = some o ∧ o.num = x := by
  unfold State.number
  simp only [Py.bind_eq_ok, get_ok]
  constructor
  · rintro ⟨r, hr, o, ho, h⟩
    cases r with
    | num y => cases ho; cases h; exact .inl hr
    | ref l =>
      simp only [State.deref, Py.bind_eq_ok] at ho
      obtain ⟨o', ho', ho⟩ := ho
      cases ho
      cases h
      unfold State.obj at ho'
      split at ho'
      · cases ho'
      · rename_i o2 h2
        cases ho'
        exact .inr ⟨l, _, hr, h2, rfl⟩
  · rintro (h | ⟨l, o, h1, h2, rfl⟩)
    · exact ⟨_, h, .inr x, rfl, rfl⟩
    · refine ⟨_, h1, .inl o, ?_, rfl⟩
      simp only [State.deref, State.obj, h2]
      rfl

/-- What a variable refers to and what it shows does not change if another one that does not share its object is acted through. -/
theorem frame {s t : State K} (hs : WF s) {c : Stmt K} (h : exec s c = .ok t) {v : Nat} {x : K} (hx : s.number v = .ok x) (hv : v ≠ target c)
    (hsh : ¬Shares s v (target c)) : t.env v = s.env v ∧ t.number v = .ok x := by
  have hnew : ∀ w o, v ≠ w → (s.new w o).env v = s.env v ∧ (s.new w o).number v = .ok x := by
    intro w o hne
    have e : (s.new w o).env v = s.env v := if_neg hne
    refine ⟨e, ?_⟩
    rw [number_eq] at hx ⊢
    rw [e]
    rcases hx with hx | ⟨l, o', h1, h2, h3⟩
    · exact .inl hx
    · refine .inr ⟨l, o', h1, ?_, h3⟩
      change (s.heap ++ [o])[l]? = some o'
      rw [List.getElem?_append_left (hs v l h1)]
      exact h2
  have hbind : ∀ w y, v ≠ w → (s.bind w y).env v = s.env v ∧ (s.bind w y).number v = .ok x := by
    intro w y hne
    have e : (s.bind w y).env v = s.env v := if_neg hne
    refine ⟨e, ?_⟩
    rw [number_eq] at hx ⊢
    rw [e]
    exact hx
  have hset : ∀ l n, s.env (target c) = some (.ref l) → ({ s with heap := s.heap.set l n } : State K).number v = .ok x := by
    intro l n hl
    rw [number_eq] at hx ⊢
    rcases hx with hx | ⟨l', o', h1, h2, h3⟩
    · exact .inl hx
    · refine .inr ⟨l', o', h1, ?_, h3⟩
      have hne : l ≠ l' := by
        rintro rfl
        exact hsh ⟨l, h1, hl⟩
      dsimp only
      rw [List.getElem?_set_ne hne]
      exact h2
  have hstore : ∀ w q, v ≠ w → (s.store w q).env v = s.env v ∧ (s.store w q).number v = .ok x := by
    intro w q hne
    cases q with
    | inl o => exact hnew w o hne
    | inr y => exact hbind w _ hne
  cases c with
  | make w y => cases h; exact hnew w _ hv
  | lit w y => cases h; exact hbind w _ hv
  | «alias» w u =>
    simp only [exec, Py.bind_eq_ok] at h
    obtain ⟨y, hy, h⟩ := h
    cases h
    exact hbind w _ hv
  | setval w y =>
    simp only [exec, Py.bind_eq_ok] at h
    obtain ⟨r, hr, h⟩ := h
    cases r with
    | num y => cases h
    | ref m => cases h; exact ⟨rfl, hset m _ (get_ok.1 hr)⟩
  | aug w op a =>
    simp only [exec, Py.bind_eq_ok] at h
    obtain ⟨r, hr, y, hy, o, ho, p, hp, q, hq, h⟩ := h
    cases r with
    | num y => cases h; exact hstore w q hv
    | ref m =>
      cases q with
      | inl n => cases h; exact ⟨rfl, hset m _ (get_ok.1 hr)⟩
      | inr x => cases h; exact hstore w _ hv
  | bin w a op b =>
    simp only [exec, Py.bind_eq_ok] at h
    obtain ⟨y, hy, z, hz, o, ho, p, hp, q, hq, h⟩ := h
    cases h
    exact hstore w q hv

/-- C121: an operation through one variable leaves alone what all variables show that do not share its object; in particular operators
other than the in-place ones never change their operands. -/
theorem C121_frame {p : List (Stmt K)} {s t : State K} (hs : run empty p = .ok s) {c : Stmt K} (h : exec s c = .ok t) {v : Nat} {x : K}
    (hx : s.number v = .ok x) (hv : v ≠ target c) (hsh : ¬Shares s v (target c)) : t.number v = .ok x :=
  (frame (wf_run wf_empty hs) h hx hv hsh).2

/-- The number an operand shows. -/
def argNumber (s : State K) : Arg K → Py K
  | .lit x => .ok x
  | .var v => s.number v

theorem deref_num {s : State K} {v : Val K} {o : Obj K ⊕ K} (h : s.deref v = .ok o) :
    (∃ x, v = .num x ∧ o = .inr x) ∨ ∃ l a, v = .ref l ∧ s.heap[l]? = some a ∧ o = .inl a := by
  cases v with
  | num x => cases h; exact .inl ⟨x, rfl, rfl⟩
  | ref l =>
    simp only [State.deref, Py.bind_eq_ok] at h
    obtain ⟨a, ha, h⟩ := h
    cases h
    unfold State.obj at ha
    split at ha
    · cases ha
    · rename_i o2 h2
      cases ha
      exact .inr ⟨l, _, rfl, h2, rfl⟩

/-- The number of an object or a number. -/
def val : Obj K ⊕ K → K
  | .inl o => o.num
  | .inr x => x

theorem arg_number {s : State K} {a : Arg K} {v : Val K} {o : Obj K ⊕ K} (h1 : s.arg a = .ok v) (h2 : s.deref v = .ok o) :
    argNumber s a = .ok (val o) := by
  cases a with
  | lit x => cases h1; cases h2; rfl
  | var w =>
    have h1 := get_ok.1 h1
    rw [argNumber, number_eq]
    rcases deref_num h2 with ⟨x, rfl, rfl⟩ | ⟨l, b, rfl, hb, rfl⟩
    · exact .inl h1
    · exact .inr ⟨l, b, h1, hb, rfl⟩

theorem binop_val {op : K → K → Py K} {o p q : Obj K ⊕ K} (h : binop op o p = .ok q) : op (val o) (val p) = .ok (val q) := by
  cases o <;> cases p <;> simp only [binop, Py.bind_eq_ok] at h <;> obtain ⟨r, hr, h⟩ := h <;> cases h <;> exact hr

theorem store_number (s : State K) (v : Nat) (q : Obj K ⊕ K) : (s.store v q).number v = .ok (val q) := by
  rw [number_eq]
  cases q with
  | inl o =>
    refine .inr ⟨s.heap.length, o, if_pos rfl, ?_, rfl⟩
    change (s.heap ++ [o])[s.heap.length]? = some o
    simp
  | inr x => exact .inl (if_pos rfl)

/-- C121: in-place operators, with a number or another variable, change what the variable shows as they would change a number; other
operators show the number they would compute for numbers. -/
theorem C121_value {s t : State K} {v : Nat} {op : K → K → Py K} :
    (∀ a, exec s (.aug v op a) = .ok t → ∃ x y r, s.number v = .ok x ∧ argNumber s a = .ok y ∧ op x y = .ok r ∧ t.number v = .ok r) ∧
      (∀ a b, exec s (.bin v a op b) = .ok t →
        ∃ x y r, argNumber s a = .ok x ∧ argNumber s b = .ok y ∧ op x y = .ok r ∧ t.number v = .ok r) ∧
      (∀ x, exec s (.setval v x) = .ok t → (∃ y, s.number v = .ok y) → t.number v = .ok x) ∧
      (∀ x, exec s (.make v x) = .ok t → t.number v = .ok x) := by
  refine ⟨?_, ?_, ?_, ?_⟩
  · intro a h
    simp only [exec, Py.bind_eq_ok] at h
    obtain ⟨r, hr, y, hy, o, ho, p, hp, q, hq, h⟩ := h
    refine ⟨val o, val p, val q, ?_, arg_number hy hp, binop_val hq, ?_⟩
    · exact arg_number (a := .var v) hr ho
    · rcases deref_num ho with ⟨x, rfl, rfl⟩ | ⟨l, b, rfl, hb, rfl⟩
      · cases h
        exact store_number s v q
      · cases q with
        | inl n =>
          cases h
          rw [number_eq]
          refine .inr ⟨l, n, get_ok.1 hr, ?_, rfl⟩
          dsimp only
          rw [List.getElem?_set_self]
          exact (List.getElem?_eq_some_iff.1 hb).1
        | inr x => cases h; exact store_number s v _
  · intro a b h
    simp only [exec, Py.bind_eq_ok] at h
    obtain ⟨x, hx, y, hy, o, ho, p, hp, q, hq, h⟩ := h
    cases h
    exact ⟨val o, val p, val q, arg_number hx ho, arg_number hy hp, binop_val hq, store_number s v q⟩
  · intro x h hy
    simp only [exec, Py.bind_eq_ok] at h
    obtain ⟨r, hr, h⟩ := h
    cases r with
    | num y => cases h
    | ref l =>
      cases h
      rw [number_eq]
      refine .inr ⟨l, ⟨0, x⟩, get_ok.1 hr, ?_, rfl⟩
      dsimp only
      obtain ⟨y, hy⟩ := hy
      rw [number_eq, get_ok.1 hr] at hy
      rcases hy with hy | ⟨l', o, h1, h2, -⟩
      · cases hy
      · cases h1
        rw [List.getElem?_set_self]
        exact (List.getElem?_eq_some_iff.1 h2).1
  · intro x h
    cases h
    exact store_number s v (.inl ⟨0, x⟩)

/-- C121: assigning a variable to another makes them share; a new object is shared with nothing. -/
theorem C121_assign {p : List (Stmt K)} {s t : State K} (hs : run empty p = .ok s) {v w : Nat} (hne : v ≠ w) :
    (∀ l, s.env w = some (.ref l) → exec s (.alias v w) = .ok t → Shares t v w) ∧ (∀ x, exec s (.make v x) = .ok t → ¬Shares t v w) ∧
      (∀ x, exec s (.lit v x) = .ok t → ¬Shares t v w) := by
  refine ⟨?_, ?_, ?_⟩
  · intro l hl h
    simp only [exec, Py.bind_eq_ok] at h
    obtain ⟨x, hx, h⟩ := h
    have hx := get_ok.1 hx
    rw [hl] at hx
    cases hx
    cases h
    exact ⟨l, if_pos rfl, (if_neg (Ne.symm hne)).trans hl⟩
  · rintro x h ⟨l, h1, h2⟩
    cases h
    have e1 : l = s.heap.length := by
      have : some (Val.ref s.heap.length : Val K) = some (.ref l) := (if_pos rfl).symm.trans h1
      cases this
      rfl
    have e2 : s.env w = some (.ref l) := (if_neg (Ne.symm hne)).symm.trans h2
    have := wf_run wf_empty hs w l e2
    omega
  · rintro x h ⟨l, h1, h2⟩
    cases h
    have : some (Val.num x : Val K) = some (.ref l) := (if_pos rfl).symm.trans h1
    cases this

/-- Statements without operators between two variables. -/
def Plain : Stmt K → Prop
  | .aug _ _ (.var _) => False
  | .bin _ (.var _) _ (.var _) => False
  | _ => True

/-- C121: as long as no operator is applied to two variables, the value inside an object is a number. -/
theorem C121_number_partial {p : List (Stmt K)} {t : State K} (h : run empty p = .ok t) (hp : ∀ c ∈ p, Plain c) {v l : Nat}
    (hv : t.env v = some (.ref l)) : t.valueIsNumber v = .ok true := by
  have key : ∀ (p : List (Stmt K)) (s : State K), (∀ o ∈ s.heap, o.depth = 0) → run s p = .ok t → (∀ c ∈ p, Plain c) → ∀ o ∈ t.heap, o.depth = 0 := by
    intro p
    induction p with
    | nil => intro s hs h _; cases h; exact hs
    | cons c p ih =>
      intro s hs h hp
      simp only [run, Py.bind_eq_ok] at h
      obtain ⟨u, hu, h⟩ := h
      refine ih u ?_ h fun c hc => hp c (by simp [hc])
      have hpc := hp c (by simp)
      have hnew : ∀ w n, n.depth = 0 → ∀ o ∈ (s.new w n).heap, o.depth = 0 := by
        intro w n hn o ho
        change o ∈ s.heap ++ [n] at ho
        rw [List.mem_append, List.mem_singleton] at ho
        rcases ho with ho | rfl
        · exact hs o ho
        · exact hn
      have hset : ∀ l n, n.depth = 0 → ∀ o ∈ s.heap.set l n, o.depth = 0 := by
        intro l n hn o ho
        rcases List.mem_or_eq_of_mem_set ho with ho | rfl
        · exact hs o ho
        · exact hn
      have hder : ∀ {v o}, s.deref v = .ok (.inl o) → o.depth = 0 := by
        intro v o h
        rcases deref_num h with ⟨x, rfl, h⟩ | ⟨l, b, rfl, hb, h⟩
        · cases h
        · cases h
          exact hs _ (List.mem_of_getElem? hb)
      cases c with
      | make w x => cases hu; exact hnew w _ rfl
      | lit w x => cases hu; exact hs
      | «alias» w u' =>
        simp only [exec, Py.bind_eq_ok] at hu
        obtain ⟨x, hx, hu⟩ := hu
        cases hu
        exact hs
      | setval w x =>
        simp only [exec, Py.bind_eq_ok] at hu
        obtain ⟨r, hr, hu⟩ := hu
        cases r with
        | num y => cases hu
        | ref m => cases hu; exact hset m _ rfl
      | aug w op a =>
        cases a with
        | var w' => exact hpc.elim
        | lit y =>
          simp only [exec, Py.bind_eq_ok] at hu
          obtain ⟨r, hr, y', hy, o, ho, p', hp', q, hq, hu⟩ := hu
          cases hy
          cases hp'
          have hq0 : ∀ n, q = .inl n → n.depth = 0 := by
            rintro n rfl
            cases o with
            | inl o =>
              simp only [binop, Py.bind_eq_ok] at hq
              obtain ⟨_, _, hq⟩ := hq
              cases hq
              exact (hder ho :)
            | inr x =>
              simp only [binop, Py.bind_eq_ok] at hq
              obtain ⟨_, _, hq⟩ := hq
              cases hq
          cases r with
          | num x =>
            cases hu
            cases q with
            | inl n => exact hnew w n (hq0 n rfl)
            | inr z => exact hs
          | ref m =>
            cases q with
            | inl n => cases hu; exact hset m n (hq0 n rfl)
            | inr z => cases hu; exact hs
      | bin w a op b =>
        simp only [exec, Py.bind_eq_ok] at hu
        obtain ⟨x, hx, y, hy, o, ho, p', hp', q, hq, hu⟩ := hu
        cases hu
        cases q with
        | inr z => exact hs
        | inl n =>
          refine hnew w n ?_
          cases a with
          | lit x' =>
            cases hx
            cases ho
            cases p' with
            | inl p' =>
              simp only [binop, Py.bind_eq_ok] at hq
              obtain ⟨_, _, hq⟩ := hq
              cases hq
              exact (hder hp' :)
            | inr z =>
              simp only [binop, Py.bind_eq_ok] at hq
              obtain ⟨_, _, hq⟩ := hq
              cases hq
          | var a' =>
            cases b with
            | var b' => exact hpc.elim
            | lit y' =>
              cases hy
              cases hp'
              cases o with
              | inl o =>
                simp only [binop, Py.bind_eq_ok] at hq
                obtain ⟨_, _, hq⟩ := hq
                cases hq
                exact (hder ho :)
              | inr z =>
                simp only [binop, Py.bind_eq_ok] at hq
                obtain ⟨_, _, hq⟩ := hq
                cases hq
  have h0 := key p empty (by intro o ho; cases ho) h hp
  have hl := wf_run wf_empty h v l hv
  unfold State.valueIsNumber State.get
  rw [hv]
  simp only [Py.ok_bind, State.deref, State.obj, List.getElem?_eq_getElem hl]
  rw [h0 _ (List.getElem_mem hl)]
  rfl

/-- C121 fails for operators between two variables: `x += y` leaves an object inside the object. -/
theorem C121_number_violated : ∃ (p : List (Stmt ℚ)) (t : State ℚ), run empty p = .ok t ∧ t.number 0 = .ok 7 ∧ t.valueIsNumber 0 = .ok false :=
  ⟨[.make 0 5, .make 1 2, .aug 0 (fun x y => .ok (x + y)) (.var 1)], _, rfl, by decide +kernel, by decide +kernel⟩

/-- The example of the documentation: `x = y = SharedVar(5); y += 1; x.setval(-1); y = 2`. -/
example : (∃ t : State ℚ, run empty [.make 0 5, .alias 1 0, .aug 1 (fun x y => .ok (x + y)) (.lit 1)] = .ok t ∧ t.number 0 = .ok 6 ∧
    t.number 1 = .ok 6) ∧
    ∃ t : State ℚ, run empty [.make 0 5, .alias 1 0, .aug 1 (fun x y => .ok (x + y)) (.lit 1), .setval 0 (-1), .lit 1 2] = .ok t ∧
      t.number 0 = .ok (-1) ∧ t.number 1 = .ok 2 :=
  ⟨⟨_, rfl, by decide +kernel, by decide +kernel⟩, ⟨_, rfl, by decide +kernel, by decide +kernel⟩⟩

end Carbon.Prop.SharedVar
