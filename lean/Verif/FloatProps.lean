import Verif.Floats
import Verif.ArithProps
import Verif.Eval

/-!
# Comparison of floats

The operators compare floats as the numbers that they denote.  The numbers are read off the bits, as IEEE 754 lays
them out, in units of the least positive float; the comparison of the model is that of Lean's `Float`.
-/

namespace Dice

open Float.Model Float.Model.UnpackedFloat

/-- Numbers in units of 2⁻¹⁰⁷⁴, and the infinities. -/
inductive Number where
  | below
  | units (n : Int)
  | above
  deriving DecidableEq

/-- The order of the numbers. -/
def Number.Less : Number → Number → Prop
  | .below, b => b ≠ .below
  | .units _, .below => False
  | .units a, .units b => a < b
  | .units _, .above => True
  | .above, _ => False

instance (x y : Number) : Decidable (x.Less y) := by
  cases x <;> cases y <;> unfold Number.Less <;> infer_instance

/-- The number with 64 bits as in IEEE 754 (sign, 11 bits of exponent, 52 bits of fraction); none for NaN. -/
def bitsNumber (n : Nat) : Option Number :=
  let sign : Int := if n / 2 ^ 63 = 0 then 1 else -1
  let e : Nat := n / 2 ^ 52 % 2 ^ 11
  let f : Nat := n % 2 ^ 52
  if e = 2047 then if f = 0 then some (if n / 2 ^ 63 = 0 then .above else .below) else none
  else if e = 0 then some (.units (sign * f))
  else some (.units (sign * (((2 ^ 52 + f) * 2 ^ (e - 1) : Nat) : Int)))

/-- The number that a float denotes. -/
def floatNumber (f : Float) : Option Number := bitsNumber f.toBits.toNat

/-- The number of an unpacked float. -/
def unpackedNumber : UnpackedFloat → Option Number
  | .notANumber => none
  | .infinity .positive => some .above
  | .infinity .negative => some .below
  | .zero _ => some (.units 0)
  | .finite s m e _ => some (.units (s.apply (m * 2 ^ (e + 1074).toNat : Nat)))

/-- The finite floats of the format. -/
def Canonical : UnpackedFloat → Prop
  | .finite _ m e _ => m < 2 ^ 53 ∧ -1074 ≤ e ∧ (2 ^ 52 ≤ m ∨ e = -1074)
  | _ => True

theorem sign_apply (c : Prop) [Decidable c] (x : Int) :
    (if c then Sign.positive else Sign.negative).apply x = (if c then 1 else -1) * x := by
  by_cases h : c
  · rw [if_pos h, if_pos h]; simp [Sign.apply]
  · rw [if_neg h, if_neg h]; simp [Sign.apply]

theorem unpack_number (b : BitVec 64) :
    unpackedNumber (UnpackedFloat.unpack Format.binary64 b) = bitsNumber b.toNat ∧ Canonical (UnpackedFloat.unpack Format.binary64 b) := by
  have hb := b.isLt
  have hs : (unpackSign (spec := Format.binary64) b).toNat = b.toNat / 2 ^ 63 := by
    simp [unpackSign, Nat.shiftRight_eq_div_pow]
    omega
  have he : (unpackExponent (spec := Format.binary64) b).toNat = b.toNat / 2 ^ 52 % 2 ^ 11 := by
    simp [unpackExponent, Nat.shiftRight_eq_div_pow]
  have hm : (unpackMantissa (spec := Format.binary64) b).toNat = b.toNat % 2 ^ 52 := by
    simp [unpackMantissa]
  have hsg : Sign.ofBitVec (unpackSign (spec := Format.binary64) b) = if b.toNat / 2 ^ 63 = 0 then .positive else .negative := by
    unfold Sign.ofBitVec
    congr 1
    rw [← BitVec.toNat_inj, hs]
    rfl
  have hml := (unpackMantissa (spec := Format.binary64) b).isLt
  have e1 : unpackExponent (spec := Format.binary64) b = -1#_ ↔ b.toNat / 2 ^ 52 % 2 ^ 11 = 2047 := by
    rw [← BitVec.toNat_inj, he]; rfl
  have e0 : unpackExponent (spec := Format.binary64) b = 0#_ ↔ b.toNat / 2 ^ 52 % 2 ^ 11 = 0 := by
    rw [← BitVec.toNat_inj, he]; rfl
  have m0 : unpackMantissa (spec := Format.binary64) b = 0#_ ↔ b.toNat % 2 ^ 52 = 0 := by
    rw [← BitVec.toNat_inj, hm]; rfl
  generalize hbn : b.toNat = n at *
  unfold UnpackedFloat.unpack bitsNumber
  dsimp only
  rw [hsg]
  by_cases h1 : n / 2 ^ 52 % 2 ^ 11 = 2047
  · rw [if_pos (e1.2 h1), if_pos h1]
    by_cases h2 : n % 2 ^ 52 = 0
    · rw [if_pos (m0.2 h2), if_pos h2]
      by_cases h3 : n / 2 ^ 63 = 0
      · rw [if_pos h3, if_pos h3]; exact ⟨rfl, trivial⟩
      · rw [if_neg h3, if_neg h3]; exact ⟨rfl, trivial⟩
    · rw [if_neg (mt m0.1 h2), if_neg h2]; exact ⟨rfl, trivial⟩
  · rw [if_neg (mt e1.1 h1), if_neg h1]
    by_cases h2 : n / 2 ^ 52 % 2 ^ 11 = 0
    · rw [if_pos (e0.2 h2), if_pos h2]
      by_cases h3 : n % 2 ^ 52 = 0
      · rw [dif_pos (m0.2 h3)]
        refine ⟨?_, trivial⟩
        simp [unpackedNumber, h3]
      · rw [dif_neg (mt m0.1 h3)]
        have hexp : ((unpackExponent (spec := Format.binary64) b).toNat : Int) - (Format.binary64.exponentBias + (52 : Nat)) + 1 = -1074 := by
          rw [he, h2]; rfl
        refine ⟨?_, ?_, ?_, .inr hexp⟩
        · unfold unpackedNumber
          dsimp only
          rw [hexp, hm, sign_apply]
          simp
        · have : (2 : Nat) ^ 52 < 2 ^ 53 := by decide
          exact Nat.lt_trans hml this
        · exact Int.le_of_eq hexp.symm
    · rw [if_neg (mt e0.1 h2), if_neg h2]
      have hi : (1#1 ++ unpackMantissa (spec := Format.binary64) b).toNat = 2 ^ 52 + n % 2 ^ 52 := by
        rw [← hm]
        exact toNat_implicit _
      have hexp : ((unpackExponent (spec := Format.binary64) b).toNat : Int) - (Format.binary64.exponentBias + (52 : Nat)) + 1074 =
          ((n / 2 ^ 52 % 2 ^ 11 - 1 : Nat) : Int) := by
        rw [he, show (Format.binary64.exponentBias : Int) = 1023 from rfl]
        omega
      refine ⟨?_, ?_, ?_, ?_⟩
      · unfold unpackedNumber
        dsimp only
        rw [hexp, hi, sign_apply, Int.toNat_natCast]
      · rw [hi]; omega
      · omega
      · exact .inl (by rw [hi]; omega)

/-- In the format, the number with the greater exponent is greater. -/
theorem finite_less {m n : Nat} {d e : Int} (hm : m < 2 ^ 53) (hd : -1074 ≤ d) (hn : 2 ^ 52 ≤ n ∨ e = -1074) (he : -1074 ≤ e) (h : d < e) :
    m * 2 ^ (d + 1074).toNat < n * 2 ^ (e + 1074).toNat := by
  have hn : 2 ^ 52 ≤ n := by omega
  obtain ⟨k, hk⟩ : ∃ k, (e + 1074).toNat = (d + 1074).toNat + 1 + k := ⟨(e + 1074).toNat - ((d + 1074).toNat + 1), by omega⟩
  rw [hk, Nat.pow_add, Nat.pow_add]
  have h1 : 0 < 2 ^ (d + 1074).toNat := Nat.pow_pos (by decide)
  have h2 : 1 ≤ 2 ^ k := Nat.pow_pos (by decide)
  calc m * 2 ^ (d + 1074).toNat < (2 * 2 ^ 52) * 2 ^ (d + 1074).toNat := Nat.mul_lt_mul_of_pos_right (by omega) h1
    _ ≤ (2 * n) * 2 ^ (d + 1074).toNat := Nat.mul_le_mul_right _ (by omega)
    _ = n * (2 ^ (d + 1074).toNat * 2 ^ 1) := by simp [Nat.mul_comm, Nat.mul_assoc]
    _ ≤ n * (2 ^ (d + 1074).toNat * 2 ^ 1 * 2 ^ k) := Nat.mul_le_mul_left _ (Nat.le_mul_of_pos_right _ h2)

theorem finite_compare {m n : Nat} {d e : Int} (hm : m < 2 ^ 53) (hd : -1074 ≤ d) (hm2 : 2 ^ 52 ≤ m ∨ d = -1074) (hn : n < 2 ^ 53) (he : -1074 ≤ e)
    (hn2 : 2 ^ 52 ≤ n ∨ e = -1074) :
    (compare d e).then (compare m n) = compare (m * 2 ^ (d + 1074).toNat) (n * 2 ^ (e + 1074).toNat) := by
  rcases Int.lt_trichotomy d e with h | h | h
  · rw [Int.compare_eq_lt.2 h, Nat.compare_eq_lt.2 (finite_less hm hd hn2 he h)]; rfl
  · subst h
    have h1 : 0 < 2 ^ (d + 1074).toNat := Nat.pow_pos (by decide)
    rw [Int.compare_eq_eq.2 rfl]
    rcases Nat.lt_trichotomy m n with h | h | h
    · rw [Nat.compare_eq_lt.2 h, Nat.compare_eq_lt.2 (Nat.mul_lt_mul_of_pos_right h h1)]; rfl
    · subst h; rw [Nat.compare_eq_eq.2 rfl, Nat.compare_eq_eq.2 rfl]; rfl
    · rw [Nat.compare_eq_gt.2 h, Nat.compare_eq_gt.2 (Nat.mul_lt_mul_of_pos_right h h1)]; rfl
  · rw [Int.compare_eq_gt.2 h, Nat.compare_eq_gt.2 (finite_less hn he hm2 hd h)]; rfl

/-- The comparison of unpacked floats is that of the numbers. -/
theorem compare_numbers {a b : UnpackedFloat} (ha : Canonical a) (hb : Canonical b) :
    match unpackedNumber a, unpackedNumber b with
    | some x, some y => (a.compare b = some .lt ↔ x.Less y) ∧ (a.compare b = some .eq ↔ x = y) ∧ (a.compare b = some .gt ↔ y.Less x)
    | _, _ => a.compare b = none := by
  have pos : ∀ {m : Nat} (e : Int), 0 < m → 0 < m * 2 ^ (e + 1074).toNat := fun e h => Nat.mul_pos h (Nat.pow_pos (by decide))
  cases a with
  | notANumber => cases b <;> rfl
  | infinity s =>
    cases b with
    | notANumber => cases s <;> rfl
    | infinity t => cases s <;> cases t <;> simp [unpackedNumber, UnpackedFloat.compare, Number.Less, compare]
    | zero t => cases s <;> simp [unpackedNumber, UnpackedFloat.compare, Number.Less]
    | finite t n e hn => cases s <;> simp [unpackedNumber, UnpackedFloat.compare, Number.Less]
  | zero s =>
    cases b with
    | notANumber => rfl
    | infinity t => cases t <;> simp [unpackedNumber, UnpackedFloat.compare, Number.Less]
    | zero t => simp [unpackedNumber, UnpackedFloat.compare, Number.Less]
    | finite t n e hn =>
      have := pos e hn
      simp only [unpackedNumber]
      generalize n * 2 ^ (e + 1074).toNat = v at *
      cases t <;> simp only [ UnpackedFloat.compare, Number.Less, Sign.apply] <;> refine ⟨?_, ?_, ?_⟩ <;> simp <;> omega
  | finite s m d hm =>
    have := pos d hm
    cases b with
    | notANumber => cases s <;> rfl
    | infinity t => cases s <;> cases t <;> simp [unpackedNumber, UnpackedFloat.compare, Number.Less]
    | zero t =>
      simp only [unpackedNumber]
      generalize m * 2 ^ (d + 1074).toNat = u at *
      cases s <;> simp only [ UnpackedFloat.compare, Number.Less, Sign.apply] <;> refine ⟨?_, ?_, ?_⟩ <;> simp <;> omega
    | finite t n e hn =>
      have := pos e hn
      have hc := finite_compare ha.1 ha.2.1 ha.2.2 hb.1 hb.2.1 hb.2.2
      simp only [unpackedNumber]
      generalize m * 2 ^ (d + 1074).toNat = u at *
      generalize n * 2 ^ (e + 1074).toNat = v at *
      cases s <;> cases t <;> simp only [UnpackedFloat.compare, Number.Less, Sign.apply, hc]
      · refine ⟨?_, ?_, ?_⟩ <;> simp [Nat.compare_eq_lt, Nat.compare_eq_gt] <;> omega
      · refine ⟨?_, ?_, ?_⟩ <;> simp <;> omega
      · refine ⟨?_, ?_, ?_⟩ <;> simp <;> omega
      · refine ⟨?_, ?_, ?_⟩ <;> simp [Nat.compare_eq_lt, Nat.compare_eq_gt] <;> omega

theorem float_number (f : Float) : unpackedNumber f.toModel.unpack = floatNumber f ∧ Canonical f.toModel.unpack :=
  unpack_number f.toModel.toBits.toBitVec

theorem float_lt (a b : Float) : a < b ↔ a.toModel.unpack.compare b.toModel.unpack = some .lt := by
  show decide (a.toModel < b.toModel) = true ↔ _
  rw [decide_eq_true_iff]
  show (a.toModel.unpack.compare b.toModel.unpack == some .lt) = true ↔ _
  simp

theorem float_le (a b : Float) : a ≤ b ↔ (a.toModel.unpack.compare b.toModel.unpack).any (·.isLE) = true := by
  show decide (a.toModel ≤ b.toModel) = true ↔ _
  rw [decide_eq_true_iff]
  exact Iff.rfl

theorem float_beq (a b : Float) : (a == b) = true ↔ a.toModel.unpack.compare b.toModel.unpack = some .eq := by
  show (a.toModel.unpack.compare b.toModel.unpack == some .eq) = true ↔ _
  simp

/-- What the comparisons of floats say about their numbers. -/
theorem float_compare {a b : Float} {x y : Number} (hx : floatNumber a = some x) (hy : floatNumber b = some y) :
    (a < b ↔ x.Less y) ∧ ((a == b) = true ↔ x = y) ∧ (a ≤ b ↔ x.Less y ∨ x = y) := by
  have h := compare_numbers (float_number a).2 (float_number b).2
  rw [(float_number a).1, (float_number b).1, hx, hy] at h
  obtain ⟨h1, h2, h3⟩ := h
  refine ⟨(float_lt a b).trans h1, (float_beq a b).trans h2, (float_le a b).trans ?_⟩
  rw [← h1, ← h2]
  cases a.toModel.unpack.compare b.toModel.unpack with
  | none => simp
  | some o => cases o <;> simp [Ordering.isLE]

/-- A NaN compares with nothing. -/
theorem float_nan {a b : Float} (h : floatNumber a = none ∨ floatNumber b = none) :
    ¬ a < b ∧ (a == b) = false ∧ ¬ a ≤ b := by
  have hc : a.toModel.unpack.compare b.toModel.unpack = none := by
    have hc := compare_numbers (float_number a).2 (float_number b).2
    rw [(float_number a).1, (float_number b).1] at hc
    rcases h with h | h
    · rw [h] at hc; exact hc
    · rw [h] at hc
      cases hx : floatNumber a <;> rw [hx] at hc <;> exact hc
  refine ⟨?_, ?_, ?_⟩
  · rw [float_lt, hc]; nofun
  · rw [Bool.eq_false_iff, Ne, float_beq, hc]; nofun
  · rw [float_le, hc]; nofun

theorem Number.total (x y : Number) : (x.Less y ∧ x ≠ y ∧ ¬ y.Less x) ∨ (¬ x.Less y ∧ x = y ∧ ¬ y.Less x) ∨ (¬ x.Less y ∧ x ≠ y ∧ y.Less x) := by
  cases x <;> cases y <;> simp [Number.Less]
  omega

/-- **C66**: floats that are no NaN compare as their numbers: exactly one of `<`, `==` and `>` is true, `<=` is the
negation of `>`, `>=` that of `<`, `!=` that of `==`. -/
theorem float_order (w : World) (cf : Nat → V Unit) {m : VM} {p : Nat} {a b : Float} {x y : Number}
    (h : Top2 m p (.float a) (.float b)) (hx : floatNumber a = some x) (hy : floatNumber b = some y) :
    ∃ lt eq gt : Bool,
      binaryOp w cf .lessThan m = (.ok (), m.replace2 p (.bool lt)) ∧
      binaryOp w cf .equal m = (.ok (), m.replace2 p (.bool eq)) ∧
      binaryOp w cf .greaterThan m = (.ok (), m.replace2 p (.bool gt)) ∧
      binaryOp w cf .lessThanOrEqual m = (.ok (), m.replace2 p (.bool !gt)) ∧
      binaryOp w cf .greaterThanOrEqual m = (.ok (), m.replace2 p (.bool !lt)) ∧
      binaryOp w cf .notEqual m = (.ok (), m.replace2 p (.bool !eq)) ∧
      (lt = true ↔ x.Less y) ∧ (eq = true ↔ x = y) ∧ (gt = true ↔ y.Less x) ∧
      [lt, eq, gt].count true = 1 := by
  obtain ⟨h1, h2, h3⟩ := float_compare hx hy
  obtain ⟨k1, _, k3⟩ := float_compare hy hx
  have ht := Number.total x y
  refine ⟨decide (a < b), a == b, decide (b < a), binaryOp_value w cf h rfl, binaryOp_value w cf h rfl, binaryOp_value w cf h rfl,
    binaryOp_value w cf h ?_, binaryOp_value w cf h ?_, binaryOp_value w cf h rfl, by simp [h1], h2, by simp [k1], ?_⟩
  · show BinResult.value (.bool (decide (a ≤ b))) = .value (.bool !(decide (b < a)))
    simp only [h3, k1]
    rcases ht with ⟨t1, t2, t3⟩ | ⟨t1, rfl, _⟩ | ⟨t1, t2, t3⟩ <;> simp [*]
  · show BinResult.value (.bool (decide (b ≤ a))) = .value (.bool !(decide (a < b)))
    simp only [k3, h1, eq_comm (a := y)]
    rcases ht with ⟨t1, t2, t3⟩ | ⟨t1, rfl, _⟩ | ⟨t1, t2, t3⟩ <;> simp [*]
  · rw [Bool.eq_iff_iff (a := a == b) (b := decide (x = y)) |>.2 (by simp [h2])]
    simp only [h1, k1]
    rcases ht with ⟨t1, t2, t3⟩ | ⟨t1, rfl, _⟩ | ⟨t1, t2, t3⟩ <;> simp [*]

/-- **C66**: a comparison with NaN is false, except `!=`. -/
theorem nan_order (w : World) (cf : Nat → V Unit) {m : VM} {p : Nat} {a b : Float}
    (h : Top2 m p (.float a) (.float b)) (hn : floatNumber a = none ∨ floatNumber b = none) :
    (∀ o ∈ [Opcode.lessThan, .equal, .greaterThan, .lessThanOrEqual, .greaterThanOrEqual],
      binaryOp w cf o m = (.ok (), m.replace2 p (.bool false))) ∧
    binaryOp w cf .notEqual m = (.ok (), m.replace2 p (.bool true)) := by
  obtain ⟨h1, h2, h3⟩ := float_nan hn
  obtain ⟨k1, _, k3⟩ := float_nan (hn.symm)
  refine ⟨?_, binaryOp_value w cf h ?_⟩
  · intro o ho
    apply binaryOp_value w cf h
    simp only [List.mem_cons, List.not_mem_nil, or_false] at ho
    rcases ho with rfl | rfl | rfl | rfl | rfl <;> simp [binDecide, h1, h2, h3, k1, k3]
  · simp [binDecide, bne, h2]

/-- The numbers 0.5 and -0.0, an infinity and a NaN. -/
example : floatNumber 0.5 = some (.units (2 ^ 1073)) ∧ floatNumber (-0.0) = some (.units 0) ∧ floatNumber (1.0 / 0.0) = some .above ∧
    floatNumber (0.0 / 0.0) = none := by decide +kernel

/-- Two floats on a stack. -/
example : ∃ m : VM, Top2 m 0 (.float 0.5) (.float (-0.0)) :=
  ⟨{ mem := fun i => if i = 0 then .float 0.5 else .float (-0.0), ptr := 2, heap := {}, cells := [], openUps := [], globals := [], modules := [] },
    by constructor <;> simp [maxStack]⟩

/-- A literal with a constant of its own, and one that shares the constant of the same number. -/
example : FloatCode 1.5 (.instr (.const .pushConst (.float 1.5))) ∧ (1.5 : Float) ≠ -0.0 ∧ ((1.5 : Float) == 1.5) = true :=
  ⟨.other (.inl rfl) (by decide +kernel), by decide +kernel, by decide +kernel⟩

/-- `0.5 < 1.5` in the evaluator. -/
example (w : World) (call : Src.Calls) (r : Src.Role) (n : Nat) (ρ : Src.SEnv) (σ : Src.State) :
    (Src.eval w call r n false (.binary .lessThan (.float 0.5) (.float 1.5)) ρ σ).1 = .ok (.bool true, ρ) := by
  have h1 : (0.5 : Float) ≠ -0.0 := by decide +kernel
  have h2 : (1.5 : Float) ≠ -0.0 := by decide +kernel
  have h3 : (0.5 : Float) < 1.5 := by decide +kernel
  simp [Src.eval, Src.strictOp, h1, h2, h3, Src.S.operand, bind, Src.S.bind, pure, Src.S.pure, Src.binary, binDecide]

end Dice
