/-!
# The symbol interner

Model of dice-runtime/src/value/symbol.rs.  It wraps `StringInterner<DefaultBackend>` of the crate
`string-interner` 0.15, which is not part of the repository; the model follows its documented behaviour:
texts are stored in the order of their first interning, a symbol is the position, and a table with
2^32 - 1 texts is full (a further new text panics).
-/

namespace Dice

/-- `SymbolInterner`, symbol.rs:5-8: the interned texts, oldest first. -/
structure Interner where
  texts : List String := []
  deriving DecidableEq, Repr

/-- `Symbol`, symbol.rs:22-27. -/
structure Symbol where
  inner : Nat
  deriving DecidableEq, Repr

namespace Interner

/-- The number of symbols `SymbolU32` can represent. -/
def capacity : Nat := 4294967295

/-- `SymbolInterner::get_or_intern`, symbol.rs:11-15; `none` is the panic of a full table. -/
def getOrIntern (t : Interner) (text : String) : Option (Symbol × Interner) :=
  match t.texts.findIdx? (fun x => x == text) with
  | some i => some (⟨i⟩, t)
  | none =>
    if t.texts.length < capacity then some (⟨t.texts.length⟩, ⟨t.texts ++ [text]⟩) else none

/-- `SymbolInterner::resolve`, symbol.rs:17-19. -/
def resolve (t : Interner) (s : Symbol) : Option String := t.texts[s.inner]?

/-- Interning a list of texts one after the other, collecting the symbols. -/
def internAll (t : Interner) : List String → Option (List Symbol × Interner)
  | [] => some ([], t)
  | x :: xs =>
    match t.getOrIntern x with
    | none => none
    | some (s, t) =>
      match t.internAll xs with
      | none => none
      | some (ss, t) => some (s :: ss, t)

end Interner

end Dice
