import Verif.Source

/-! Specification functions for source positions, written directly over the characters of the text,
without any line table. -/

namespace Dice

/-- The part of a text after its last newline. -/
def lastLine (cs : List Char) : List Char := (cs.reverse.takeWhile (· ≠ '\n')).reverse

/-- Number of UTF-16 code units of a text: characters outside the basic plane take two. -/
def utf16Len : List Char → Nat
  | [] => 0
  | c :: cs => (if c.val < 0x10000 then 1 else 2) + utf16Len cs

/-- The non-empty lines of a text as byte ranges, each including its final newline.  `start` is the
start of the current line and `cur` the current offset. -/
def lineSpans (start cur : Nat) : List Char → List Span
  | [] => if start < cur then [⟨start, cur⟩] else []
  | c :: cs =>
    if c = '\n' then ⟨start, cur + lenUtf8 c⟩ :: lineSpans (cur + lenUtf8 c) (cur + lenUtf8 c) cs
    else lineSpans start (cur + lenUtf8 c) cs

/-- Each range starts where the previous one ends. -/
def Consecutive : List Span → Prop
  | a :: b :: rest => a.stop = b.start ∧ Consecutive (b :: rest)
  | _ => True

end Dice
