import Verif.Span

/-!
# Line index

Model of `/repo/dice-core/src/source.rs`.  A source text is the list of its characters
(`source.chars()`); byte offsets are `Nat`.  A panic (index out of bounds, arithmetic underflow)
is the result `none`.
-/

namespace Dice

/-- `char::len_utf8` (Rust standard library): 1 to 4 bytes. -/
def lenUtf8 (c : Char) : Nat := c.utf8Size

/-- Byte length of a text, `str::len`. -/
def byteLen : List Char → Nat
  | [] => 0
  | c :: cs => lenUtf8 c + byteLen cs

/-- `/repo/dice-core/src/source.rs:5-9` (`LineColumn`). -/
structure LineColumn where
  line : Nat
  columnUtf16 : Nat
deriving DecidableEq, Repr

/-- `/repo/dice-core/src/source.rs:19-25` (`Utf16Character::len_utf16`), as a function of the byte
length of the character. -/
def utf16OfLen (len : Nat) : Nat := if len == 4 then 2 else 1

/-- `/repo/dice-core/src/source.rs:103-108` (`LineIndex`).  The hash map from line numbers to
the non-ASCII characters of the line is an association list, newest entry first. -/
structure LineIndex where
  newlines : List Nat
  utf16Lines : List (Nat × List Span)
  utf8Len : Nat
deriving Repr

/-- The local variables of the loop in `/repo/dice-core/src/source.rs:111-143`. -/
structure ScanState where
  utf16Lines : List (Nat × List Span) := []
  utf16Characters : List Span := []
  newlines : List Nat := [0]
  currentLine : Nat := 0
  currentColumn : Nat := 0
  currentRow : Nat := 0

/-- `/repo/dice-core/src/source.rs:119-143`: one iteration of the loop over the characters. -/
def ScanState.step (s : ScanState) (c : Char) : ScanState :=
  let len := lenUtf8 c
  let row := s.currentRow + len
  if c = '\n' then
    { s with
      currentRow := row
      newlines := s.newlines ++ [row]
      utf16Lines := if s.utf16Characters.isEmpty then s.utf16Lines
        else (s.currentLine, s.utf16Characters) :: s.utf16Lines
      utf16Characters := []
      currentColumn := 0
      currentLine := s.currentLine + 1 }
  else
    { s with
      currentRow := row
      utf16Characters := if c.val < 128 then s.utf16Characters
        else s.utf16Characters ++ [⟨s.currentColumn, s.currentColumn + len⟩]
      currentColumn := s.currentColumn + len }

/-- `/repo/dice-core/src/source.rs:111-154` (`LineIndex::new`). -/
def LineIndex.new (source : List Char) : LineIndex :=
  let s := source.foldl ScanState.step {}
  { newlines := s.newlines
    utf16Lines := if s.utf16Characters.isEmpty then s.utf16Lines
      else (s.currentLine, s.utf16Characters) :: s.utf16Lines
    utf8Len := byteLen source }

/-- The loop of `slice::binary_search_by` (Rust standard library) specialised to a comparator that
answers `Less` when `p` holds and `Greater` otherwise: invariant `base + size ≤ length`. -/
def bsearchLoop (xs : List Nat) (p : Nat → Bool) (base size : Nat) : Nat :=
  if _h : size ≤ 1 then base
  else
    let half := size / 2
    let mid := base + half
    bsearchLoop xs p (if (xs[mid]?.map p).getD false then mid else base) (size - half)
termination_by size
decreasing_by omega

/-- `/repo/dice-core/src/source.rs:217-226` (`partition_point`): the comparator never answers
`Equal`, so `binary_search_by` returns `Err(i)` and the result is `i`. -/
def partitionPoint (xs : List Nat) (p : Nat → Bool) : Nat :=
  if xs.length = 0 then 0
  else
    let base := bsearchLoop xs p 0 xs.length
    if (xs[base]?.map p).getD false then base + 1 else base

/-- `/repo/dice-core/src/source.rs:200-214`: the loop over the non-ASCII characters of the line. -/
def utf16Loop (col : Nat) : Nat → List Span → Option Nat
  | result, [] => some result
  | result, ch :: rest =>
    if ch.stop ≤ col then
      match ch.len with
      | none => none
      | some len =>
        if utf16OfLen len ≤ len ∧ len - utf16OfLen len ≤ result then
          utf16Loop col (result - (len - utf16OfLen len)) rest
        else none
    else some result

/-- `/repo/dice-core/src/source.rs:200-214` (`convert_to_utf16_column`). -/
def LineIndex.convertToUtf16Column (ix : LineIndex) (line col : Nat) : Option Nat :=
  match ix.utf16Lines.lookup line with
  | some chars => utf16Loop col col chars
  | none => some col

/-- `/repo/dice-core/src/source.rs:157-166` (`position_of`). -/
def LineIndex.positionOf (ix : LineIndex) (offset : Nat) : Option LineColumn :=
  match partitionPoint ix.newlines (fun it => decide (it ≤ offset)) with
  | 0 => none
  | line + 1 =>
    match ix.newlines[line]? with
    | none => none
    | some lineStart =>
      if lineStart ≤ offset then
        (ix.convertToUtf16Column line (offset - lineStart)).map (fun c => ⟨line, c⟩)
      else none

/-- `/repo/dice-core/src/source.rs:169-198` (`lines`); `none` is the panic of the slice
`newlines[start_line..end_line]` when `start_line > end_line`. -/
def LineIndex.lines (ix : LineIndex) (span : Span) : Option (List Span) :=
  let startLine0 := partitionPoint ix.newlines (fun it => decide (it ≤ span.start))
  let endLine0 := partitionPoint ix.newlines (fun it => decide (it < span.stop))
  let startLine := if startLine0 ≠ 0 then startLine0 - 1 else startLine0
  let (endRange, endLine) :=
    match ix.newlines[endLine0]? with
    | some r => (r, endLine0 + 1)
    | none => (ix.utf8Len, endLine0)
  if startLine ≤ endLine then
    let allLines := (ix.newlines.take endLine).drop startLine ++ [endRange]
    some (((allLines.zip (allLines.drop 1)).map (fun p => (⟨p.1, p.2⟩ : Span))).filter
      (fun s => !s.isEmpty))
  else none

end Dice
