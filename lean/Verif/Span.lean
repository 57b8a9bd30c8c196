/-!
# Source spans

Model of `/repo/dice-core/src/span.rs`.  `usize` is modelled by `Nat`; none of the operations
below adds or multiplies, so no overflow can occur.
-/

namespace Dice

/-- `/repo/dice-core/src/span.rs:3-7` (`struct Span`). -/
structure Span where
  start : Nat
  stop : Nat
deriving DecidableEq, Repr

namespace Span

/-- `/repo/dice-core/src/span.rs:17-19` (`Span::empty`). -/
def empty : Span := ⟨0, 0⟩

/-- `/repo/dice-core/src/span.rs:21-23` (`Span::len`); `none` is the underflow panic. -/
def len (s : Span) : Option Nat := if s.start ≤ s.stop then some (s.stop - s.start) else none

/-- `/repo/dice-core/src/span.rs:25-27` (`Span::is_empty`). -/
def isEmpty (s : Span) : Bool := s.start == s.stop

/-- `/repo/dice-core/src/span.rs:34-65` (`impl Add for Span`, all three impls are the same). -/
def add (a b : Span) : Span := ⟨min a.start b.start, max a.stop b.stop⟩

instance : Add Span := ⟨add⟩

end Span
end Dice
