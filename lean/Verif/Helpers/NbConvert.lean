import Verif.Sdk.Token

/-!
# Model of `resources/NBTest/ConvertNBTest.py`: test files generated from notebooks

The program lists the notebook files of a directory, converts each into a test file, and writes the test files into another directory. What it
prints is left out. The name `r`, under which `process_code` finds the record of the file being converted, is a global variable of the
program; it is an argument here. Files are given in the order of their sorted names (lines 62-64); the directory written to is a map from names to texts.
-/

namespace Carbon.NbConvert

/-- The record of a file (ConvertNBTest.py:67). -/
structure Rec where
  tid : Str
  comment : Str
  fn : Str
  outfn : Str
  deriving DecidableEq, Repr

/-- `fn.rsplit(".", maxsplit=1)` (ConvertNBTest.py:72): the parts before and after the last period; nothing if there is none (line 73). -/
def rsplitDot (s : Str) : Option (Str × Str) :=
  if '.' ∈ s then some (((s.reverse.dropWhile (· ≠ '.')).drop 1).reverse, (s.reverse.takeWhile (· ≠ '.')).reverse) else none

/-- The name of the test file (ConvertNBTest.py:83). -/
def outName (tid comment : Str) : Str := "test_".toList ++ tid ++ '_' :: comment ++ ".py".toList

/-- `filterfn` (ConvertNBTest.py:68-84). -/
def filterfn (fn : Str) : Option Rec :=
  match rsplitDot fn with
  | none => none
  | some (stem, ext) =>
    if lower ext = "py".toList then
      match TokenC.splitChar '_' stem with
      | [n, tid] => if n = "NBTest".toList then some ⟨tid, [], fn, outName tid []⟩ else none
      | [n, tid, comment] => if n = "NBTest".toList then some ⟨tid, comment, fn, outName tid comment⟩ else none
      | _ => none
    else none

/-- `title[-n:]`. -/
def lastN (n : Nat) (s : Str) : Str := s.drop (s.length - n)

/-- `title[:-n]` for `n > 0`. -/
def butLastN (n : Nat) (s : Str) : Str := s.take (s.length - n)

/-- Lower case and underscores (ConvertNBTest.py:131-132). -/
def ident (title : Str) : Str := (lower title).map fun c => if c = ' ' then '_' else c

/-- `funcn` (ConvertNBTest.py:104-134); `dflt` is the global `NOTEST_DEFAULT`. `strip` and `lower` are those for ASCII characters. -/
def funcn (dflt title : Str) : Str :=
  let title := CarbonPair.strip title
  if lastN 8 title = "[NOTEST]".toList then "notest_".toList ++ ident (CarbonPair.strip (butLastN 8 title))
  else if lastN 6 title = "[TEST]".toList then "test_".toList ++ ident (CarbonPair.strip (butLastN 6 title))
  else (if dflt = "NOTEST".toList then "notest_".toList else "test_".toList) ++ ident title

/-- `"# "+"-"*60`. -/
def rule : Str := "# ".toList ++ List.replicate 60 '-'

/-- The first lines of a test file (ConvertNBTest.py:157-178). The line on the target path shows the source path (line 170). -/
def header (dr : Rec) (srcpath trgpath : Str) : List Str :=
  [rule, "# Auto generated test file `".toList ++ dr.outfn ++ "`".toList, rule, "# source file   = ".toList ++ dr.fn]
  ++ (if srcpath ≠ [] ∧ srcpath ≠ ".".toList then ["# source path   = ".toList ++ srcpath] else [])
  ++ (if trgpath ≠ [] ∧ trgpath ≠ ".".toList then ["# target path   = ".toList ++ srcpath] else [])
  ++ ["# test id       = ".toList ++ dr.tid, "# test comment  = ".toList ++ dr.comment, rule, [], []]

/-- The state of the loop over the lines: `outlines`, `is_precode`, and the global `NOTEST_DEFAULT`. -/
structure St where
  out : List Str
  precode : Bool
  dflt : Str
  deriving DecidableEq, Repr

/-- The lines that begin a function (ConvertNBTest.py:194-205). -/
def banner (r : Rec) (dflt title : Str) : List Str :=
  [[], rule, "# Test      ".toList ++ r.tid, "# File      ".toList ++ r.outfn, "# Segment   ".toList ++ title, rule,
    "def ".toList ++ funcn dflt title ++ "():".toList, rule]

/-- One turn of the loop over the lines (ConvertNBTest.py:180-233). -/
def step (r : Rec) (s : St) (l : Str) : Py St :=
  if l.take 4 = "# # ".toList then .ok { s with out := s.out ++ [[]] }
  else if l.take 5 = "# ## ".toList ∨ l.take 5 = "# ##".toList ++ ['\u00a0'] then
    .ok { s with out := s.out ++ banner r s.dflt (CarbonPair.strip (l.drop 5)), precode := false }
  else if l.take 9 = "# NBTEST:".toList then
    match TokenC.splitChar '=' (l.drop 9) with
    | [opt, val] =>
      if upper (CarbonPair.strip opt) = "NOTEST_DEFAULT".toList then
        if upper (CarbonPair.strip val) = "TEST".toList ∨ upper (CarbonPair.strip val) = "NOTEST".toList then
          .ok { s with dflt := upper (CarbonPair.strip val) }
        else .error .value
      else .error .value
    | _ => .error .value
  else if s.precode then
    if l.take 2 = "# ".toList then .ok s else .ok { s with out := s.out ++ [l] }
  else .ok { s with out := s.out ++ ["    ".toList ++ l] }

/-- `process_code` (ConvertNBTest.py:147-235): the text and the global `NOTEST_DEFAULT` afterwards. -/
def processCode (r dr : Rec) (dflt code srcpath trgpath : Str) : Py (Str × Str) := do
  let s ← (TokenC.splitLines code).foldlM (step r) ⟨header dr srcpath trgpath, true, dflt⟩
  .ok (['\n'].intercalate s.out, s.dflt)

/-- The directory written to. -/
abbrev Target := Str → Option Str

/-- The loop over the files (ConvertNBTest.py:95-96, 236-240): names and texts, in the order of the names. An error ends the program; the files written before
it remain. -/
def run (srcpath trgpath : Str) : List (Str × Str) → Str → Target → Py Str × Target
  | [], dflt, k => (.ok dflt, k)
  | (fn, code) :: fs, dflt, k =>
    match filterfn fn with
    | none => run srcpath trgpath fs dflt k
    | some r =>
      match processCode r r dflt code srcpath trgpath with
      | .error e => (.error e, k)
      | .ok (text, dflt') => run srcpath trgpath fs dflt' (Function.update k r.outfn (some text))

end Carbon.NbConvert
