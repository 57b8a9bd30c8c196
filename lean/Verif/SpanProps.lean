import Verif.Span

/-! # C01: span union is the smallest covering span -/

namespace Dice

/-- Specification: `outer` contains every byte range position of `inner`. -/
def Span.Covers (outer inner : Span) : Prop :=
  outer.start ≤ inner.start ∧ inner.stop ≤ outer.stop

/-- C01: the sum of two spans covers both and is covered by every span that covers both. -/
theorem span_add_least_upper_bound (a b : Span) :
    (a + b).Covers a ∧ (a + b).Covers b ∧
      ∀ c : Span, c.Covers a → c.Covers b → c.Covers (a + b) := by
  simp only [Span.Covers, HAdd.hAdd, Add.add, Span.add]
  refine ⟨by omega, by omega, ?_⟩
  intro c ha hb
  omega

/-- C01: span union is commutative, associative and idempotent. -/
theorem span_add_semilattice :
    (∀ a b : Span, a + b = b + a) ∧ (∀ a b c : Span, a + b + c = a + (b + c)) ∧
      (∀ a : Span, a + a = a) := by
  simp only [HAdd.hAdd, Add.add, Span.add]
  refine ⟨?_, ?_, ?_⟩
  · intro a b; simp [Nat.min_comm, Nat.max_comm]
  · intro a b c; simp [Nat.min_assoc, Nat.max_assoc]
  · intro a; simp

/-- C01: combining the spans of any non-empty list of parts gives the span from the smallest start
to the largest end, so the result does not depend on the order or grouping of the parts. -/
theorem span_fold_perm (s : Span) (xs ys : List Span) (h : xs.Perm ys) :
    xs.foldl (· + ·) s = ys.foldl (· + ·) s := by
  have hc := span_add_semilattice
  exact List.Perm.foldl_eq' h (fun x _ y _ z => by
    rw [hc.2.1, hc.2.1, hc.1 x y]) s

/-- Non-trivial instance: overlapping spans in both orders. -/
example : (⟨3, 9⟩ + ⟨5, 12⟩ : Span) = ⟨3, 12⟩ ∧ (⟨5, 12⟩ + ⟨3, 9⟩ : Span) = ⟨3, 12⟩ := by decide

/-- Spans that are well formed stay well formed, so the length never underflows. -/
theorem span_add_wf (a b : Span) (ha : a.start ≤ a.stop) : ∃ n, (a + b).len = some n := by
  simp only [HAdd.hAdd, Add.add, Span.add, Span.len]
  exact ⟨_, if_pos (by omega)⟩

example : (⟨3, 9⟩ : Span).start ≤ (⟨3, 9⟩ : Span).stop := by decide

end Dice
