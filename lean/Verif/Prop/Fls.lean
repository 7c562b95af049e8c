import Verif.Helpers.Fls

/-!
# C160: what is saved to a file is what is loaded from it
-/

namespace Carbon.Fls

variable {J B : Type}

/-- Putting content into a file and nothing else. -/
def Puts (k k' : Disk B) (name : Str) (b : B) : Prop :=
  k'.file name = some b ∧ (∀ n, n ≠ name → k'.file n = k.file n) ∧ k'.writable = k.writable

theorem newlines_id : ∀ s : Str, '\r' ∉ s → newlines s = s
  | [], _ => rfl
  | c :: l, h => by
    have hc : c ≠ '\r' := fun h' => h (by simp [h'])
    have ih := newlines_id l (fun h' => h (List.mem_cons_of_mem _ h'))
    rw [newlines.eq_4 c l (fun _ h' _ => hc h') (fun h' => hc h'), ih]

/-- No carriage return is ever read in text mode. -/
theorem newlines_cr (s : Str) : '\r' ∉ newlines s := by
  induction s using newlines.induct with
  | case1 => simp [newlines]
  | case2 l ih => simp [newlines, ih]
  | case3 l h ih => rw [newlines.eq_3 l h]; simp [ih]
  | case4 c l h h' ih =>
    rw [newlines.eq_4 c l h h']
    simp only [List.mem_cons, not_or]
    exact ⟨fun e => h' e.symm, ih⟩

theorem write_ok {L : Lib J B} {k : Disk B} {name : Str} {bin : Bool} {d : Data J B} {b : B} (hw : k.writable name = true)
    (hd : (bin = true ∧ d = .bytes b) ∨ (bin = false ∧ ∃ s, d = .text s ∧ b = L.enc s)) :
    ∃ k', write L k name bin d = (.ok (), k') ∧ Puts k k' name b := by
  unfold write
  rw [hw]
  rcases hd with ⟨rfl, rfl⟩ | ⟨rfl, s, rfl, rfl⟩
  · exact ⟨_, rfl, by simp, fun n hn => by simp [hn], rfl⟩
  · exact ⟨_, rfl, by simp, fun n hn => by simp [hn], rfl⟩

/-- C160: a text is saved in every file that can be written; no other file changes, and loading it gives the text with carriage returns read
as newlines. -/
theorem C160_text (L : Lib J B) (k : Disk B) (s fn : Str) (path : Option Str) (hw : k.writable (fullName path fn) = true) :
    ∃ k', fsave L k (.text s) fn path {} = (.ok (), k') ∧ Puts k k' (fullName path fn) (L.enc s) ∧
      fload L k' fn path {} = .ok (.text (newlines s)) := by
  obtain ⟨k', h1, h2⟩ := write_ok (L := L) (bin := false) (d := .text s) hw (.inr ⟨rfl, s, rfl, rfl⟩)
  refine ⟨k', h1, h2, ?_⟩
  simp [fload, h2.1, L.dec_enc]

/-- C160: so a text without carriage returns is loaded as it was saved. The missing part is `C160_newline_violated`. -/
theorem C160_text_partial (L : Lib J B) (k : Disk B) (s fn : Str) (path : Option Str) (hw : k.writable (fullName path fn) = true)
    (hs : '\r' ∉ s) :
    ∃ k', fsave L k (.text s) fn path {} = (.ok (), k') ∧ fload L k' fn path {} = .ok (.text s) := by
  obtain ⟨k', h1, _, h3⟩ := C160_text L k s fn path hw
  exact ⟨k', h1, by rw [h3, newlines_id s hs]⟩

/-- C160: a text with a carriage return is never loaded as it was saved. -/
theorem C160_newline_violated (L : Lib J B) (k k' : Disk B) (s fn : Str) (path : Option Str) (hs : '\r' ∈ s)
    (h : fsave L k (.text s) fn path {} = (.ok (), k')) :
    fload L k' fn path {} ≠ .ok (.text s) := by
  have hw : k.writable (fullName path fn) = true := by
    by_contra hw
    have hw : k.writable (fullName path fn) = false := by simpa using hw
    simp [fsave, prepare, write, hw] at h
  obtain ⟨k'', h1, _, h3⟩ := C160_text L k s fn path hw
  rw [h1] at h
  obtain rfl : k'' = k' := (Prod.mk.injEq .. ▸ h).2
  rw [h3]
  intro e
  have : newlines s = s := by simpa using e
  exact newlines_cr s (by rw [this]; exact hs)

/-- C160: bytes are saved and loaded as they are. -/
theorem C160_binary (L : Lib J B) (k : Disk B) (b : B) (fn : Str) (path : Option Str) (hw : k.writable (fullName path fn) = true) :
    ∃ k', fsave L k (.bytes b) fn path { binary := true } = (.ok (), k') ∧ Puts k k' (fullName path fn) b ∧
      fload L k' fn path { binary := true } = .ok (.bytes b) := by
  obtain ⟨k', h1, h2⟩ := write_ok (L := L) (bin := true) (d := .bytes b) hw (.inl ⟨rfl, rfl⟩)
  refine ⟨k', h1, h2, ?_⟩
  simp [fload, h2.1]

/-- C160: texts (carriage returns included) and objects saved as JSON are loaded as they were, compressed or not. -/
theorem C160_json (L : Lib J B) (k : Disk B) (d : Data J B) (fn : Str) (path : Option Str) (z : Bool)
    (hw : k.writable (fullName path fn) = true) (hd : ∀ b, d ≠ .bytes b) :
    ∃ k' b, fsave L k d fn path { json := true, compressed := z } = (.ok (), k') ∧ Puts k k' (fullName path fn) b ∧
      fload L k' fn path { json := true, compressed := z } = .ok d := by
  obtain ⟨v, hv, hv'⟩ : ∃ v, dumps L d = .ok (L.dumps v) ∧
      (match v with | .inl s => .text s | .inr j => .obj j : Data J B) = d := by
    cases d with
    | text s => exact ⟨.inl s, rfl, rfl⟩
    | obj j => exact ⟨.inr j, rfl, rfl⟩
    | bytes b => exact absurd rfl (hd b)
  cases z with
  | false =>
    obtain ⟨k', h1, h2⟩ := write_ok (L := L) (bin := false) (d := .text (L.dumps v)) hw (.inr ⟨rfl, _, rfl, rfl⟩)
    refine ⟨k', _, ?_, h2, ?_⟩
    · simpa [fsave, prepare, hv] using h1
    · simp [fload, h2.1, L.dec_enc, newlines_id _ (L.dumps_cr v), loads, L.loads_dumps]
      cases v <;> simpa using hv'
  | true =>
    obtain ⟨k', h1, h2⟩ := write_ok (L := L) (bin := true) (d := .bytes (L.gz (L.enc (L.dumps v)))) hw (.inl ⟨rfl, rfl⟩)
    refine ⟨k', _, ?_, h2, ?_⟩
    · simpa [fsave, prepare, hv] using h1
    · simp [fload, h2.1, L.gunzip_gz, L.dec_enc, loads, L.loads_dumps]
      cases v <;> simpa using hv'

/-- C160: a text saved compressed is loaded, with the same options, as bytes and not as the text. -/
theorem C160_compressed_violated (L : Lib J B) (k : Disk B) (s fn : Str) (path : Option Str) (hw : k.writable (fullName path fn) = true) :
    ∃ k', fsave L k (.text s) fn path { compressed := true } = (.ok (), k') ∧
      fload L k' fn path { compressed := true } = .ok (.bytes (L.enc s)) ∧
      fload L k' fn path { compressed := true } ≠ .ok (.text s) := by
  obtain ⟨k', h1, h2⟩ := write_ok (L := L) (bin := true) (d := .bytes (L.gz (L.enc s))) hw (.inl ⟨rfl, rfl⟩)
  have h3 : fload L k' fn path { compressed := true } = .ok (.bytes (L.enc s)) := by
    simp [fload, h2.1, L.gunzip_gz]
  exact ⟨k', by simpa [fsave, prepare] using h1, h3, by rw [h3]; simp⟩

/-- C160: with a wrapper (without carriage returns) the file holds the text wrapped once, and loading with the same options wraps it again. -/
theorem C160_wrapper (L : Lib J B) (k : Disk B) (s fn pre post : Str) (path : Option Str) (hw : k.writable (fullName path fn) = true)
    (hs : '\r' ∉ pre ++ s ++ post) :
    ∃ k', fsave L k (.text s) fn path { wrapper := some (pre, post) } = (.ok (), k') ∧
      fload L k' fn path {} = .ok (.text (pre ++ s ++ post)) ∧
      fload L k' fn path { wrapper := some (pre, post) } = .ok (.text (pre ++ (pre ++ s ++ post) ++ post)) := by
  obtain ⟨k', h1, h2⟩ := write_ok (L := L) (bin := false) (d := .text (pre ++ s ++ post)) hw (.inr ⟨rfl, _, rfl, rfl⟩)
  refine ⟨k', h1, ?_, ?_⟩
  · simp only [fload, h2.1, L.dec_enc, Py.ok_bind, newlines_id _ hs]
    simp
  · simp only [fload, h2.1, L.dec_enc, Py.ok_bind, newlines_id _ hs]
    simp [wrap]

/-- C160: so with a wrapper of at least one character the text is never loaded with the options it was saved with. -/
theorem C160_wrapper_violated (L : Lib J B) (k : Disk B) (s fn pre post : Str) (path : Option Str) (hw : k.writable (fullName path fn) = true)
    (hs : '\r' ∉ pre ++ s ++ post) (hne : pre ++ post ≠ []) :
    ∃ k', fsave L k (.text s) fn path { wrapper := some (pre, post) } = (.ok (), k') ∧
      fload L k' fn path { wrapper := some (pre, post) } ≠ .ok (.text s) := by
  obtain ⟨k', h1, _, h3⟩ := C160_wrapper L k s fn pre post path hw hs
  refine ⟨k', h1, ?_⟩
  rw [h3]
  intro e
  have e : pre ++ (pre ++ s ++ post) ++ post = s := by simpa using e
  have := congrArg List.length e
  simp only [List.length_append] at this
  have : (pre ++ post).length = 0 := by rw [List.length_append]; omega
  exact hne (List.length_eq_zero_iff.mp this)

/-- C160: what a failed save does: data that do not suit the mode raise `TypeError` with the file already emptied. This covers objects saved
without `json`, texts saved as binary (also those made by `json`), and bytes saved as text. -/
theorem C160_truncates_violated (L : Lib J B) (k : Disk B) (d d' : Data J B) (fn : Str) (path : Option Str) (o : Opts)
    (hw : k.writable (fullName path fn) = true) (hy : o.yaml = false) (hp : prepare L o d = .ok d')
    (hd : match d' with | .text _ => (o.compressed || o.binary) = true | .bytes _ => (o.compressed || o.binary) = false | .obj _ => True) :
    ∃ k', fsave L k d fn path o = (.error .type, k') ∧ Puts k k' (fullName path fn) L.nil := by
  unfold fsave
  rw [hy, hp]
  simp only [Bool.false_eq_true, if_false]
  unfold write
  rw [hw]
  cases d' with
  | text s => simp only at hd; rw [hd]; exact ⟨_, rfl, by simp, fun n hn => by simp [hn], rfl⟩
  | bytes s => simp only at hd; rw [hd]; exact ⟨_, rfl, by simp, fun n hn => by simp [hn], rfl⟩
  | obj s => cases (o.compressed || o.binary) <;> exact ⟨_, rfl, by simp, fun n hn => by simp [hn], rfl⟩

/-- C160: in particular the combination of `json` and `binary` empties the file for all data that JSON can hold. -/
theorem C160_json_binary_violated (L : Lib J B) (k : Disk B) (d : Data J B) (fn : Str) (path : Option Str)
    (hw : k.writable (fullName path fn) = true) (hd : ∀ b, d ≠ .bytes b) :
    ∃ k', fsave L k d fn path { json := true, binary := true } = (.error .type, k') ∧ Puts k k' (fullName path fn) L.nil := by
  cases d with
  | text s => exact C160_truncates_violated L k _ (.text (L.dumps (.inl s))) fn path _ hw rfl rfl rfl
  | obj j => exact C160_truncates_violated L k _ (.text (L.dumps (.inr j))) fn path _ hw rfl rfl rfl
  | bytes b => exact absurd rfl (hd b)

/-- C160: whatever a save does, all other files stay as they were; and any failure that is no `TypeError` of the writing leaves this file
too. -/
theorem C160_others (L : Lib J B) (k : Disk B) (d : Data J B) (fn : Str) (path : Option Str) (o : Opts) :
    (∀ n, n ≠ fullName path fn → (fsave L k d fn path o).2.file n = k.file n) ∧
    (∀ e, (fsave L k d fn path o).1 = .error e → e ≠ .type → (fsave L k d fn path o).2 = k) := by
  unfold fsave
  split
  · exact ⟨fun _ _ => rfl, fun _ _ _ => rfl⟩
  · split
    · exact ⟨fun _ _ => rfl, fun _ _ _ => rfl⟩
    · rename_i d' _
      unfold write
      split
      · exact ⟨fun _ _ => rfl, fun _ _ _ => rfl⟩
      · cases (o.compressed || o.binary) <;> cases d' <;>
          exact ⟨fun n hn => by simp [hn], fun e he hne => by first | (exact absurd (Except.error.inj he).symm hne) | (simp at he)⟩

/-- C160: bytes can be saved neither compressed (`AttributeError`) nor as JSON (`TypeError`); the file stays. -/
theorem C160_bytes_refused_violated (L : Lib J B) (k : Disk B) (b : B) (fn : Str) (path : Option Str) (bin z : Bool) :
    fsave L k (.bytes b) fn path { binary := bin, compressed := true } = (.error .attr, k) ∧
    fsave L k (.bytes b) fn path { binary := bin, json := true, compressed := z } = (.error .type, k) := ⟨rfl, rfl⟩

/-- C160: loading a file that does not exist raises, and YAML is refused by both functions without effect. -/
theorem C160_missing (L : Lib J B) (k : Disk B) (d : Data J B) (fn : Str) (path : Option Str) (o : Opts) :
    (o.yaml = false → k.file (fullName path fn) = none → fload L k fn path o = .error (.custom "FileNotFoundError")) ∧
    (o.yaml = true → fsave L k d fn path o = (.error .assertion, k) ∧ fload L k fn path o = .error .assertion) := by
  refine ⟨fun hy h => ?_, fun hy => ?_⟩
  · simp [fload, hy, h]
  · simp [fload, fsave, hy]

/-- C160: the directory and the name: an absolute name is used alone, and otherwise a trailing slash of the directory makes no difference. -/
theorem C160_name (path fn : Str) :
    (fn.head? = some '/' → fullName (some path) fn = fn) ∧
    (path ≠ [] → path.getLast? ≠ some '/' → fullName (some (path ++ ['/'])) fn = fullName (some path) fn) ∧
    fullName none fn = fullName (some ".".toList) fn ∧
    (fn.head? ≠ some '/' → fullName (some []) fn = fn) := by
  refine ⟨fun h => by simp [fullName, join, h], fun h h' => ?_, rfl, fun h => by simp [fullName, join, h]⟩
  by_cases hf : fn.head? = some '/'
  · simp [fullName, join, hf]
  · simp [fullName, join, hf, h, h']

/-! ### Non-vacuity -/

/-- A library over texts: bytes are texts, compression puts a mark in front, and JSON knows texts, quoted with escapes, and `null`. -/
private def esc : Str → Str
  | [] => []
  | '\r' :: l => '~' :: 'r' :: esc l
  | '~' :: l => '~' :: '~' :: esc l
  | c :: l => c :: esc l

private def unesc : Str → Str
  | [] => []
  | '~' :: 'r' :: l => '\r' :: unesc l
  | '~' :: '~' :: l => '~' :: unesc l
  | c :: l => c :: unesc l

private theorem unesc_esc (s : Str) : unesc (esc s) = s := by
  induction s using esc.induct with
  | case1 => rfl
  | case2 l ih => simp [esc, unesc, ih]
  | case3 l ih => simp [esc, unesc, ih]
  | case4 c l h h' ih =>
    rw [esc.eq_4 c l h h', unesc.eq_4 c _ (fun _ e _ => h' e) (fun _ e _ => h' e), ih]

private theorem esc_cr (s : Str) : '\r' ∉ esc s := by
  induction s using esc.induct with
  | case1 => simp [esc]
  | case2 l ih => simp [esc, ih]
  | case3 l ih => simp [esc, ih]
  | case4 c l h h' ih =>
    rw [esc.eq_4 c l h h']
    simp only [List.mem_cons, not_or]
    exact ⟨fun e => h e.symm, ih⟩

/-- A library with these properties exists. -/
def libEx : Lib Unit Str where
  enc := id
  dec := .ok
  dec_enc _ := rfl
  nil := []
  gz b := 'z' :: b
  gunzip b := match b with
    | 'z' :: b => .ok b
    | _ => .error .value
  gunzip_gz _ := rfl
  dumps v := match v with
    | .inl s => '"' :: esc s
    | .inr () => "null".toList
  loads s := match s with
    | '"' :: s => .ok (.inl (unesc s))
    | _ => .ok (.inr ())
  loads_dumps v := by
    cases v with
    | inl s => simp [unesc_esc]
    | inr u => rfl
  dumps_cr v := by
    cases v with
    | inl s => simp [esc_cr]
    | inr u => simp
  strObj _ := "None".toList
  strBytes b := 'b' :: b

/-- A disk with one file. -/
def diskEx : Disk Str where
  file n := if n = "./a".toList then some "old".toList else none
  writable _ := true

/-- The file is replaced, and the newline of another system is lost. -/
example : (fsave libEx diskEx (.text "x\r\ny".toList) "a".toList none {}).1 = .ok () ∧
    fload libEx (fsave libEx diskEx (.text "x\r\ny".toList) "a".toList none {}).2 "a".toList none {} = .ok (.text "x\ny".toList) ∧
    fload libEx diskEx "a".toList none {} = .ok (.text "old".toList) := by
  decide +kernel

/-- An object saved without `json` destroys the file. -/
example : (fsave libEx diskEx (.obj ()) "a".toList none {}).1 = .error .type ∧
    (fsave libEx diskEx (.obj ()) "a".toList none {}).2.file "./a".toList = some [] := by
  decide +kernel

/-- The wrapper of the module is applied twice. -/
example : fload libEx (fsave libEx diskEx (.text "b".toList) "a".toList none { wrapper := some ("<".toList, ">".toList) }).2 "a".toList none
    { wrapper := some ("<".toList, ">".toList) } = .ok (.text "<<b>>".toList) := by
  decide +kernel

end Carbon.Fls
