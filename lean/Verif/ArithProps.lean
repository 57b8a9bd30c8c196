import Verif.VmLemmas

/-!
# C26, C27: arithmetic, equality and comparison of built-in values

The theorems speak about `binaryOp`, the whole effect of a binary instruction on the machine: operands are
taken from the stack and replaced by the result.  `cf` is the function called for user-defined operators; it
is arbitrary, so the theorems also say that no user code runs.
-/

namespace Dice

/-! ## C26 -/

/-- `+`, `-`, `*` of integers, as mathematics. -/
def exactResult : Opcode → Int → Int → Option Int
  | .add, a, b => some (a + b)
  | .subtract, a, b => some (a - b)
  | .multiply, a, b => some (a * b)
  | _, _, _ => none

/-- **C26**: when the mathematical result fits in 64 bits, `+`, `-`, `*` compute it, in both builds. -/
theorem int_arith_exact (w : World) (cf : Nat → V Unit) {o : Opcode} {m : VM} {p : Nat} {a b x : Int}
    (h : Top2 m p (.int a) (.int b)) (hx : exactResult o a b = some x) (hr : -(2 ^ 63) ≤ x ∧ x < 2 ^ 63) :
    binaryOp w cf o m = (.ok (), m.replace2 p (.int x)) := by
  have hd : binDecide w o (.int a) (.int b) = .int x := by
    cases o <;> simp only [exactResult, reduceCtorEq, Option.some.injEq] at hx <;>
      (subst hx; rfl)
  rw [binaryOp_top2 w cf o h, hd]
  have hi : i64Result w x = pure x := by
    unfold i64Result
    rw [if_pos (show InI64 x from hr)]
  show (i64Result w x >>= fun r => poke 0 (.int r)) _ = _
  rw [hi, bind_ok (pure_eval x _)]
  exact poke_top2 _ h

/-- **C26**, overflow: the result that does not fit is never delivered silently as some other integer in a
checked build; in an unchecked build it is the result modulo 2^64. -/
theorem int_arith_overflow (w : World) (cf : Nat → V Unit) {o : Opcode} {m : VM} {p : Nat} {a b x : Int}
    (h : Top2 m p (.int a) (.int b)) (hx : exactResult o a b = some x) (hr : ¬ (-(2 ^ 63) ≤ x ∧ x < 2 ^ 63)) :
    (w.checks = true → ∃ s, (binaryOp w cf o m).1 = .panic s) ∧
    (w.checks = false → ∃ y, binaryOp w cf o m = (.ok (), m.replace2 p (.int y)) ∧
      -(2 ^ 63) ≤ y ∧ y < 2 ^ 63 ∧ (2 ^ 64 : Int) ∣ x - y) := by
  have hd : binDecide w o (.int a) (.int b) = .int x := by
    cases o <;> simp only [exactResult, reduceCtorEq, Option.some.injEq] at hx <;>
      (subst hx; rfl)
  rw [binaryOp_top2 w cf o h, hd]
  constructor
  · intro hc
    have hi : i64Result w x = V.panic "attempt to compute with overflow" := by
      unfold i64Result
      rw [if_neg (show ¬ InI64 x from hr), if_pos hc]
    refine ⟨"attempt to compute with overflow", ?_⟩
    show ((i64Result w x >>= fun r => poke 0 (.int r)) _).1 = _
    rw [hi]
    rfl
  · intro hc
    have hi : i64Result w x = pure (Int.bmod x (2 ^ 64)) := by
      unfold i64Result
      rw [if_neg (show ¬ InI64 x from hr), if_neg (by simp [hc])]
    refine ⟨Int.bmod x (2 ^ 64), ?_, ?_, ?_, ?_⟩
    · show (i64Result w x >>= fun r => poke 0 (.int r)) _ = _
      rw [hi, bind_ok (pure_eval _ _)]
      exact poke_top2 _ h
    · have := Int.le_bmod (x := x) (m := 2 ^ 64) (by decide)
      omega
    · have := Int.bmod_lt (x := x) (m := 2 ^ 64) (by decide)
      omega
    · exact Int.dvd_self_sub_bmod

/-- What quotient and remainder have to satisfy: division truncates toward zero. -/
structure TruncDiv (a b q r : Int) : Prop where
  eq : a = q * b + r
  small : r.natAbs < b.natAbs
  sign : (0 ≤ a → 0 ≤ r) ∧ (a ≤ 0 → r ≤ 0)

/-- The conditions determine quotient and remainder. -/
theorem TruncDiv.unique {a b q r q' r' : Int} (h : TruncDiv a b q r) (h' : TruncDiv a b q' r') :
    q = q' ∧ r = r' := by
  have hb : b ≠ 0 := by
    intro hb
    have := h.small
    rw [hb] at this
    simp at this
  have hd : (q - q') * b = r' - r := by
    have h1 := h.eq
    have h2 := h'.eq
    rw [Int.sub_mul]
    omega
  have hs : (r' - r).natAbs < b.natAbs := by
    have h1 := h.small
    have h2 := h'.small
    rcases Int.le_total 0 a with ha | ha
    · have := h.sign.1 ha
      have := h'.sign.1 ha
      omega
    · have := h.sign.2 ha
      have := h'.sign.2 ha
      omega
  have hz : q - q' = 0 := by
    apply Classical.byContradiction
    intro hne
    have h1 : (q - q').natAbs * b.natAbs = (r' - r).natAbs := by rw [← Int.natAbs_mul, hd]
    have h2 : 1 ≤ (q - q').natAbs := by omega
    have h3 := Nat.mul_le_mul_right b.natAbs h2
    omega
  rw [hz] at hd
  constructor <;> omega

theorem truncDiv_tdiv (a b : Int) (hb : b ≠ 0) : TruncDiv a b (a.tdiv b) (a.tmod b) where
  eq := by
    have := Int.mul_tdiv_add_tmod a b
    rw [Int.mul_comm] at this
    omega
  small := by
    rw [Int.natAbs_tmod]
    exact Nat.mod_lt _ (by omega)
  sign := by
    constructor
    · intro h
      exact Int.tmod_nonneg b h
    · intro h
      have h1 := Int.tmod_nonneg b (show 0 ≤ -a by omega)
      rw [Int.neg_tmod] at h1
      omega

/-- **C26**: `/` and `%` of integers by a nonzero divisor deliver quotient and remainder of the truncated
division, except for the one quotient that does not fit. -/
theorem int_div_rem (w : World) (cf : Nat → V Unit) {m : VM} {p : Nat} {a b : Int}
    (h : Top2 m p (.int a) (.int b)) (hb : b ≠ 0) (ha : -(2 ^ 63) ≤ a ∧ a < 2 ^ 63)
    (hr : ¬ (a = -(2 ^ 63) ∧ b = -1)) :
    ∃ q r, TruncDiv a b q r ∧
      binaryOp w cf .divide m = (.ok (), m.replace2 p (.int q)) ∧
      binaryOp w cf .remainder m = (.ok (), m.replace2 p (.int r)) := by
  have ht := truncDiv_tdiv a b hb
  have hq : InI64 (a.tdiv b) := by
    have h1 := Int.natAbs_tdiv a b
    have h2 : (a.tdiv b).natAbs ≤ a.natAbs := by
      rw [h1]
      exact Nat.div_le_self _ _
    unfold InI64
    apply Classical.byContradiction
    intro hn
    have h3 : a.natAbs = 2 ^ 63 ∧ a.tdiv b = 2 ^ 63 := by omega
    have h4 : a = -(2 ^ 63) := by omega
    have h5 : b.natAbs = 1 := by
      have h6 : a.natAbs / b.natAbs = 2 ^ 63 := by
        have h7 : a.natAbs.div b.natAbs = 2 ^ 63 := by rw [← h1]; omega
        exact h7
      rw [h3.1] at h6
      apply Classical.byContradiction
      intro hne
      have h7 : 2 ^ 63 / b.natAbs ≤ 2 ^ 63 / 2 := Nat.div_le_div_left (by omega) (by omega)
      omega
    have h8 : b = 1 ∨ b = -1 := by omega
    rcases h8 with h8 | h8
    · rw [h8] at h3
      simp at h3
      omega
    · exact hr ⟨h4, h8⟩
  refine ⟨a.tdiv b, a.tmod b, ht, ?_, ?_⟩
  · rw [binaryOp_top2 w cf .divide h]
    rw [show binDecide w .divide (.int a) (.int b) = .quotient a b from by
      show (if b = 0 then BinResult.divideByZero else .quotient a b) = _
      rw [if_neg hb]]
    show (i64Div a b >>= fun r => poke 0 (.int r)) _ = _
    rw [show i64Div a b = pure (a.tdiv b) from by unfold i64Div; rw [if_pos hq], bind_ok (pure_eval _ _)]
    exact poke_top2 _ h
  · rw [binaryOp_top2 w cf .remainder h]
    rw [show binDecide w .remainder (.int a) (.int b) = .remainder a b from by
      show (if b = 0 then BinResult.divideByZero else .remainder a b) = _
      rw [if_neg hb]]
    show (i64Rem a b >>= fun r => poke 0 (.int r)) _ = _
    rw [show i64Rem a b = pure (a.tmod b) from by unfold i64Rem; rw [if_pos hq], bind_ok (pure_eval _ _)]
    exact poke_top2 _ h

/-- **C26**: division and remainder by zero report an error. -/
theorem int_div_zero (w : World) (cf : Nat → V Unit) {o : Opcode} {m : VM} {p : Nat} {a : Int}
    (h : Top2 m p (.int a) (.int 0)) (ho : o = .divide ∨ o = .remainder) :
    (binaryOp w cf o m).1 = .err .divideByZero := by
  rcases ho with rfl | rfl <;> rw [binaryOp_top2 w cf _ h] <;> rfl

/-- **C26** fails at one point: dividing the smallest integer by -1 is neither exact nor a reported error,
it aborts the process. -/
theorem int_div_overflow (w : World) (cf : Nat → V Unit) {o : Opcode} {m : VM} {p : Nat}
    (h : Top2 m p (.int (-(2 ^ 63))) (.int (-1))) (ho : o = .divide ∨ o = .remainder) :
    ∃ s, (binaryOp w cf o m).1 = .panic s := by
  rcases ho with rfl | rfl
  · refine ⟨"attempt to divide with overflow", ?_⟩
    rw [binaryOp_top2 w cf _ h]
    rfl
  · refine ⟨"attempt to calculate the remainder with overflow", ?_⟩
    rw [binaryOp_top2 w cf _ h]
    rfl

/-- The hypotheses of the theorems above are met. -/
example (w : World) (cf : Nat → V Unit) :
    ∃ m : VM, Top2 m 0 (.int (-7)) (.int 2) ∧
      binaryOp w cf .multiply m = (.ok (), m.replace2 0 (.int (-14))) ∧
      binaryOp w cf .divide m = (.ok (), m.replace2 0 (.int (-3))) ∧
      binaryOp w cf .remainder m = (.ok (), m.replace2 0 (.int (-1))) := by
  let m : VM := { mem := fun i => if i = 0 then .int (-7) else .int 2, ptr := 2 }
  have h : Top2 m 0 (.int (-7)) (.int 2) := ⟨rfl, by decide, rfl, rfl⟩
  refine ⟨m, h, int_arith_exact w cf h rfl (by decide), ?_⟩
  obtain ⟨q, r, ht, h1, h2⟩ := int_div_rem w cf h (by decide) (by decide) (by decide)
  obtain ⟨rfl, rfl⟩ := ht.unique (q' := -3) (r' := -1) ⟨by decide, by decide, by decide⟩
  exact ⟨h1, h2⟩

/-! ## C27 -/

/-- The built-in equality, as a table; `none` where it has no built-in meaning.  Strings, functions, arrays,
objects and classes have none: comparing them is left to the operator functions `#eq` and `#neq`. -/
def builtinEq : Value → Value → Option Bool
  | .null, .null => some true
  | .null, _ => some false
  | _, .null => some false
  | .unit, .unit => some true
  | .unit, _ => some false
  | _, .unit => some false
  | .bool a, .bool b => some (decide (a = b))
  | .int a, .int b => some (decide (a = b))
  | .float a, .float b => some (a == b)
  | _, _ => none

theorem binDecide_equal (w : World) (l r : Value) :
    binDecide w .equal l r = (match builtinEq l r with | some b => .value (.bool b) | none => .call "#eq") := by
  cases l <;> cases r <;> rfl

theorem binDecide_notEqual (w : World) (l r : Value) :
    binDecide w .notEqual l r =
      (match builtinEq l r with | some b => .value (.bool !b) | none => .call "#neq") := by
  cases l <;> cases r <;> try rfl

/-- **C27**: on values with built-in equality, `==` and `!=` give opposite booleans and run no user code. -/
theorem neq_negates_eq (w : World) (cf : Nat → V Unit) {m : VM} {p : Nat} {l r : Value} {b : Bool}
    (h : Top2 m p l r) (hb : builtinEq l r = some b) :
    binaryOp w cf .equal m = (.ok (), m.replace2 p (.bool b)) ∧
    binaryOp w cf .notEqual m = (.ok (), m.replace2 p (.bool !b)) := by
  constructor
  · exact binaryOp_value w cf h (by rw [binDecide_equal, hb])
  · exact binaryOp_value w cf h (by rw [binDecide_notEqual, hb])

/-- Values on which `==` is built in and not subject to floating point: null, unit, booleans, integers. -/
def Value.isScalar : Value → Prop
  | .null | .unit | .bool _ | .int _ => True
  | _ => False

/-- What `==` leaves on the stack for two values. -/
def eqResult (w : World) (cf : Nat → V Unit) (l r : Value) (b : Bool) : Prop :=
  ∀ m p, Top2 m p l r → binaryOp w cf .equal m = (.ok (), m.replace2 p (.bool b))

theorem eqResult_of_builtin (w : World) (cf : Nat → V Unit) {l r : Value} {b : Bool}
    (h : builtinEq l r = some b) : eqResult w cf l r b := fun _ _ ht => (neq_negates_eq w cf ht h).1

theorem eqResult_unique {w : World} {cf : Nat → V Unit} {l r : Value} {b c : Bool}
    (h1 : eqResult w cf l r b) (h2 : eqResult w cf l r c) : b = c := by
  let m : VM := { mem := fun i => if i = 0 then l else r, ptr := 2 }
  have ht : Top2 m 0 l r := ⟨rfl, by decide, rfl, rfl⟩
  have h := (h1 m 0 ht).symm.trans (h2 m 0 ht)
  have h3 : (m.replace2 0 (.bool b)).mem 0 = (m.replace2 0 (.bool c)).mem 0 := by
    injection h with _ h
    rw [h]
  have h4 : Value.bool b = .bool c := h3
  injection h4

/-- **C27**: `==` on null, unit, booleans and integers (mixed too) is total and true exactly on identical
values, hence an equivalence. -/
theorem eq_scalar_iff (w : World) (cf : Nat → V Unit) {l r : Value} (hl : l.isScalar) (hr : r.isScalar)
    (hm : l.kind = r.kind ∨ l = .null ∨ r = .null ∨ l = .unit ∨ r = .unit) :
    ∃ b, eqResult w cf l r b ∧ (b = true ↔ l = r) := by
  have key : ∃ b, builtinEq l r = some b ∧ (b = true ↔ l = r) := by
    cases l <;> simp only [Value.isScalar] at hl <;> cases r <;> simp only [Value.isScalar] at hr <;>
      simp [builtinEq, Value.kind] at hm ⊢
  obtain ⟨b, h1, h2⟩ := key
  exact ⟨b, eqResult_of_builtin w cf h1, h2⟩

/-- **C27** does not extend to strings: with no operator `#eq` in reach, comparing two strings with `==` is a
run-time error, even a string with itself. -/
theorem eq_string_undefined (w : World) (cf : Nat → V Unit) {m : VM} {p : Nat} {s t : String}
    (h : Top2 m p (.str s) (.str t)) (hc : w.valueClass .string = none) (hg : m.globals.get "#eq" = none) :
    (binaryOp w cf .equal m).1 = .err (.operatorUndefined "#eq") := by
  have hb := h.bound
  rw [binaryOp_top2 w cf .equal h]
  show (callBinaryOp w cf "#eq" (.str t) _).1 = _
  unfold callBinaryOp
  rw [bind_ok (pop_eval (p := p) rfl (by omega))]
  have hl : upd m.mem (p + 1) .null p = .str s := by rw [upd_other (by omega), h.lhs]
  dsimp only
  rw [hl]
  have hf : ∀ m' : VM, getField w "#eq" (.str s) m' = (.ok .null, m') := by
    intro m'
    show getMethod (w.valueClass .string) "#eq" (.str s) m' = _
    rw [hc]
    rfl
  rw [bind_ok (hf _)]
  have ho : ∀ m' : VM, m'.globals = m.globals →
      operatorFn "#eq" m' = (.err (.operatorUndefined "#eq"), m') := by
    intro m' he
    unfold operatorFn
    rw [he, hg]
  show ((operatorFn "#eq" >>= _) _).1 = _
  rw [bind_err (ho { m with mem := upd (upd m.mem (p + 1) .null) p .null, ptr := p } rfl)]

/-- **C27**: on integers exactly one of `<`, `==`, `>` is true, `<=` is the negation of `>`, `>=` that of
`<`. -/
theorem int_order (w : World) (cf : Nat → V Unit) {m : VM} {p : Nat} {a b : Int}
    (h : Top2 m p (.int a) (.int b)) :
    ∃ lt eq gt : Bool,
      binaryOp w cf .lessThan m = (.ok (), m.replace2 p (.bool lt)) ∧
      binaryOp w cf .equal m = (.ok (), m.replace2 p (.bool eq)) ∧
      binaryOp w cf .greaterThan m = (.ok (), m.replace2 p (.bool gt)) ∧
      binaryOp w cf .lessThanOrEqual m = (.ok (), m.replace2 p (.bool !gt)) ∧
      binaryOp w cf .greaterThanOrEqual m = (.ok (), m.replace2 p (.bool !lt)) ∧
      (lt = true ↔ a < b) ∧ (eq = true ↔ a = b) ∧ (gt = true ↔ b < a) ∧
      [lt, eq, gt].count true = 1 := by
  refine ⟨decide (a < b), decide (a = b), decide (a > b), binaryOp_value w cf h rfl,
    (neq_negates_eq w cf h rfl).1, binaryOp_value w cf h rfl, binaryOp_value w cf h ?_,
    binaryOp_value w cf h ?_, by simp, by simp, by simp, ?_⟩
  · show BinResult.value (.bool (decide (a ≤ b))) = .value (.bool !(decide (a > b)))
    by_cases hab : a ≤ b <;> simp [hab] <;> omega
  · show BinResult.value (.bool (decide (a ≥ b))) = .value (.bool !(decide (a < b)))
    by_cases hab : a ≥ b <;> simp [hab] <;> omega
  · rcases Int.lt_trichotomy a b with hab | hab | hab
    · have h1 : ¬ a = b := by omega
      have h2 : ¬ a > b := by omega
      simp [hab, h1, h2]
    · subst hab
      simp
    · have h1 : ¬ a = b := by omega
      have h2 : ¬ a < b := by omega
      simp [hab, h1, h2]

/-- **C27**: booleans are ordered with `false` below `true`. -/
theorem bool_order (w : World) (cf : Nat → V Unit) {m : VM} {p : Nat} {a b : Bool}
    (h : Top2 m p (.bool a) (.bool b)) :
    binaryOp w cf .lessThan m = (.ok (), m.replace2 p (.bool (decide (a.toNat < b.toNat)))) ∧
    binaryOp w cf .equal m = (.ok (), m.replace2 p (.bool (decide (a.toNat = b.toNat)))) ∧
    binaryOp w cf .greaterThan m = (.ok (), m.replace2 p (.bool (decide (b.toNat < a.toNat)))) ∧
    binaryOp w cf .lessThanOrEqual m = (.ok (), m.replace2 p (.bool (decide (a.toNat ≤ b.toNat)))) ∧
    binaryOp w cf .greaterThanOrEqual m = (.ok (), m.replace2 p (.bool (decide (b.toNat ≤ a.toNat)))) := by
  refine ⟨?_, ?_, ?_, ?_, ?_⟩ <;> apply binaryOp_value w cf h <;> cases a <;> cases b <;> rfl

example (w : World) (cf : Nat → V Unit) : ∃ b, eqResult w cf .null (.int 3) b ∧ (b = true ↔ Value.null = .int 3) :=
  eq_scalar_iff w cf trivial trivial (.inr (.inl rfl))

/-- Comparing values of different built-in kinds other than null and unit has no built-in meaning. -/
example : builtinEq (.int 1) (.bool true) = none := rfl

end Dice
