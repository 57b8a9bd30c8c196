import Verif.Natives
import Verif.Balance
import Verif.KernelRfl

/-! # C55, C56, C57, C58: the built-in classes -/

namespace Dice

namespace Natives

/-! ## Integers -/

theorem inI64_of_mul {a p : Int} (hp : 1 ≤ p) (h : InI64 (a * p)) : InI64 a := by
  unfold InI64 at *
  rcases Int.le_total 0 a with ha | ha
  · have := Int.mul_le_mul_of_nonneg_left hp ha
    rw [Int.mul_one] at this
    omega
  · have : a * p ≤ a * 1 := Int.mul_le_mul_of_nonpos_left ha hp
    rw [Int.mul_one] at this
    omega

theorem square_in (b : Int) (h : b * b ≤ 2 ^ 63) : InI64 (b * b) := by
  have h0 : (0 : Int) ≤ b * b := by
    rcases Int.le_total 0 b with hb | hb
    · exact Int.mul_nonneg hb hb
    · have := Int.mul_nonneg (a := -b) (b := -b) (by omega) (by omega)
      rwa [Int.neg_mul_neg] at this
  refine ⟨by omega, ?_⟩
  have hn : b * b = ((b.natAbs * b.natAbs : Nat) : Int) := by
    rw [Int.natCast_mul, ← Int.natAbs_mul_self' b]
  rcases Nat.lt_or_ge b.natAbs 3037000500 with hlt | hge
  · have := Nat.mul_le_mul (Nat.le_of_lt_succ hlt) (Nat.le_of_lt_succ hlt)
    omega
  · have := Nat.mul_le_mul hge hge
    omega

theorem pow_pos_of {b : Int} (h : 1 ≤ b) : ∀ e : Nat, 1 ≤ b ^ e
  | 0 => by simp
  | e + 1 => by
    have := pow_pos_of h e
    rw [Int.pow_succ]
    have h2 := Int.mul_le_mul this h (by omega) (by omega)
    simpa using h2

theorem le_pow_of {b : Int} (h : 1 ≤ b) {e : Nat} (he : 1 ≤ e) : b ≤ b ^ e := by
  obtain ⟨k, rfl⟩ : ∃ k, e = k + 1 := ⟨e - 1, by omega⟩
  rw [Int.pow_succ]
  have := Int.mul_le_mul_of_nonneg_right (pow_pos_of h k) (show 0 ≤ b by omega)
  simpa using this

theorem square_pos {b : Int} (h : b ≠ 0) : 1 ≤ b * b := by
  rcases Int.lt_or_gt_of_ne h with hb | hb
  · have := Int.mul_pos_of_neg_of_neg hb hb
    omega
  · have := Int.mul_pos hb hb
    omega

/-- A power as the loop computes it. -/
theorem pow_halves (base acc : Int) (exp : Nat) : acc * base ^ exp =
    (if exp % 2 = 1 then acc * base else acc) * (base * base) ^ (exp / 2) := by
  have h : exp = 2 * (exp / 2) + exp % 2 := by omega
  have h2 : base ^ (2 * (exp / 2)) = (base * base) ^ (exp / 2) := by
    rw [Int.pow_mul, show base ^ 2 = base * base by rw [Int.pow_succ, Int.pow_succ, Int.pow_zero, Int.one_mul]]
  split
  · next h1 =>
    conv => lhs; rw [h, h1, Int.pow_add, h2]
    rw [Int.pow_succ, Int.pow_zero, Int.one_mul, Int.mul_comm ((base * base) ^ (exp / 2)) base, Int.mul_assoc]
  · next h1 =>
    have h0 : exp % 2 = 0 := by omega
    conv => lhs; rw [h, h0, Nat.add_zero, h2]

theorem powLoop_step (checks : Bool) (base acc : Int) (exp : Nat) (h : ¬ exp ≤ 1) :
    powLoop checks base exp acc =
      (if exp % 2 = 1 then mulI64 checks acc base else some acc).bind fun acc =>
        (mulI64 checks base base).bind fun base => powLoop checks base (exp / 2) acc := by
  conv => lhs; unfold powLoop
  rw [dif_neg h]
  split <;> rfl

theorem powLoop_last (checks : Bool) (base acc : Int) :
    powLoop checks base 1 acc = mulI64 checks acc base := by
  unfold powLoop
  rw [dif_pos (Nat.le_refl 1)]

theorem pow_one_int (b : Int) : b ^ 1 = b := by
  rw [Int.pow_succ, Int.pow_zero, Int.one_mul]

theorem powLoop_checked (exp : Nat) : ∀ base acc : Int, 1 ≤ exp → InI64 base → InI64 acc →
    (acc = 0 → base = 0) →
    powLoop true base exp acc = if InI64 (acc * base ^ exp) then some (acc * base ^ exp) else none := by
  induction exp using Nat.strongRecOn with
  | ind exp ih =>
    intro base acc he hb ha hz
    by_cases h1 : exp ≤ 1
    · have : exp = 1 := by omega
      subst this
      rw [powLoop_last, pow_one_int]
      rfl
    · rw [powLoop_step true base acc exp h1]
      have hstep := pow_halves base acc exp
      generalize hacc : (if exp % 2 = 1 then acc * base else acc) = acc' at hstep
      rw [hstep]
      have hz' : acc' = 0 → base * base = 0 := by
        intro h0
        rw [← hacc] at h0
        split at h0
        · rcases Int.mul_eq_zero.mp h0 with h | h
          · rw [hz h]; rfl
          · rw [h]; rfl
        · rw [hz h0]; rfl
      have hin : InI64 (acc' * (base * base) ^ (exp / 2)) → InI64 acc' ∧ InI64 (base * base) := by
        intro hf
        by_cases hb0 : base = 0
        · subst hb0
          refine ⟨?_, by decide⟩
          rw [← hacc]
          split
          · rw [Int.mul_zero]; decide
          · exact ha
        · have hsq := square_pos hb0
          have hp := pow_pos_of hsq (exp / 2)
          refine ⟨inI64_of_mul hp hf, square_in base ?_⟩
          have hle := le_pow_of hsq (e := exp / 2) (by omega)
          have hacc0 : acc' ≠ 0 := fun h => by have := hz' h; omega
          unfold InI64 at hf
          generalize (base * base) ^ (exp / 2) = P at *
          rcases Int.lt_or_gt_of_ne hacc0 with hneg | hpos
          · have : acc' * P ≤ -1 * P := Int.mul_le_mul_of_nonneg_right (by omega) (by omega)
            omega
          · have : 1 * P ≤ acc' * P := Int.mul_le_mul_of_nonneg_right (by omega) (by omega)
            omega
      have haccI : (if exp % 2 = 1 then mulI64 true acc base else some acc) =
          if InI64 acc' then some acc' else none := by
        rw [← hacc]
        split
        · simp [mulI64]
        · simp [ha]
      rw [haccI]
      by_cases hA : InI64 acc'
      · by_cases hB : InI64 (base * base)
        · simp only [hA, if_true, mulI64, hB, Option.bind_some]
          exact ih (exp / 2) (by omega) _ _ (by omega) hB hA hz'
        · have hn : ¬ InI64 (acc' * (base * base) ^ (exp / 2)) := fun h => hB (hin h).2
          simp [hA, mulI64, hB, hn]
      · have hn : ¬ InI64 (acc' * (base * base) ^ (exp / 2)) := fun h => hA (hin h).1
        simp [hA, hn]

/-- Equal up to multiples of 2^64. -/
def Same (a b : Int) : Prop := a % (2 ^ 64 : Nat) = b % (2 ^ 64 : Nat)

theorem Same.mul {a b c d : Int} (h1 : Same a b) (h2 : Same c d) : Same (a * c) (b * d) := by
  unfold Same at *
  rw [Int.mul_emod, h1, h2, ← Int.mul_emod]

theorem Same.pow {a b : Int} (h : Same a b) : ∀ e : Nat, Same (a ^ e) (b ^ e)
  | 0 => by rw [Int.pow_zero, Int.pow_zero]; rfl
  | e + 1 => by rw [Int.pow_succ, Int.pow_succ]; exact (Same.pow h e).mul h

theorem mulI64_wraps (a b : Int) : ∃ r, mulI64 false a b = some r ∧ InI64 r ∧ Same r (a * b) := by
  unfold mulI64
  by_cases h : InI64 (a * b)
  · exact ⟨_, by rw [if_pos h], h, rfl⟩
  · refine ⟨Int.bmod (a * b) (2 ^ 64), by rw [if_neg h]; rfl, ?_, ?_⟩
    · have h1 := Int.le_bmod (x := a * b) (m := 2 ^ 64) (by decide)
      have h2 := Int.bmod_lt (x := a * b) (m := 2 ^ 64) (by decide)
      unfold InI64
      omega
    · exact Int.bmod_emod

theorem powLoop_wraps (exp : Nat) : ∀ base acc : Int, 1 ≤ exp →
    ∃ r, powLoop false base exp acc = some r ∧ InI64 r ∧ Same r (acc * base ^ exp) := by
  induction exp using Nat.strongRecOn with
  | ind exp ih =>
    intro base acc he
    by_cases h1 : exp ≤ 1
    · have : exp = 1 := by omega
      subst this
      rw [powLoop_last, pow_one_int]
      exact mulI64_wraps acc base
    · rw [powLoop_step false base acc exp h1, pow_halves base acc exp]
      obtain ⟨b', hb1, _, hb3⟩ := mulI64_wraps base base
      have hacc : ∃ acc', (if exp % 2 = 1 then mulI64 false acc base else some acc) = some acc' ∧
          Same acc' (if exp % 2 = 1 then acc * base else acc) := by
        split
        · obtain ⟨r, h1, _, h3⟩ := mulI64_wraps acc base
          exact ⟨r, h1, h3⟩
        · exact ⟨acc, rfl, rfl⟩
      obtain ⟨acc', ha1, ha2⟩ := hacc
      rw [ha1, hb1]
      obtain ⟨r, hr1, hr2, hr3⟩ := ih (exp / 2) (by omega) b' acc' (by omega)
      refine ⟨r, hr1, hr2, ?_⟩
      have := ha2.mul (hb3.pow (exp / 2))
      unfold Same at *
      rw [hr3, this]

/-- `i64::pow`: the power if it fits; otherwise a panic in the debug build. -/
theorem powI64_checked (base : Int) (exp : Nat) (h : InI64 base) :
    powI64 true base exp = if InI64 (base ^ exp) then some (base ^ exp) else none := by
  unfold powI64
  by_cases he : exp = 0
  · subst he
    rw [Int.pow_zero]
    rfl
  · rw [if_neg he, powLoop_checked exp base 1 (by omega) h (by decide)
      (fun h => absurd h (by decide)), Int.one_mul]

/-- `i64::pow` in the release build: the power up to multiples of 2^64. -/
theorem powI64_wraps (base : Int) (exp : Nat) :
    ∃ r, powI64 false base exp = some r ∧ InI64 r ∧ Same r (base ^ exp) := by
  unfold powI64
  by_cases he : exp = 0
  · subst he
    rw [Int.pow_zero]
    exact ⟨1, rfl, by decide, rfl⟩
  · rw [if_neg he]
    have := powLoop_wraps exp base 1 (by omega)
    rwa [Int.one_mul] at this

/-! ## Text of integers -/

/-- The number that a list of decimal digits denotes. -/
def decimal (ds : List Char) : Nat := ds.foldl (fun n c => 10 * n + (c.toNat - '0'.toNat)) 0

/-- `s` is the number `n` in decimal notation, with an optional sign. -/
def IsDecimal (s : String) (n : Int) : Prop :=
  ∃ ds : List Char, ds ≠ [] ∧ (∀ d ∈ ds, d.isDigit = true) ∧
    ((s.toList = ds ∨ s.toList = '+' :: ds) ∧ n = decimal ds ∨ s.toList = '-' :: ds ∧ n = -(decimal ds : Int))

theorem le_digits (ds : List Char) : ∀ a : Nat, a ≤ ds.foldl (fun n c => 10 * n + (c.toNat - '0'.toNat)) a := by
  induction ds with
  | nil => exact fun a => Nat.le_refl a
  | cons d ds ih =>
    intro a
    have := ih (10 * a + (d.toNat - '0'.toNat))
    rw [List.foldl_cons]
    omega

theorem parseLoop_digits {s : Int} (hs : s = 1 ∨ s = -1) (ds : List Char) : (∀ d ∈ ds, d.isDigit = true) →
    ∀ a : Nat, InI64 (s * a) → parseLoop s (s * a) ds =
      checked (s * (ds.foldl (fun n c => 10 * n + (c.toNat - '0'.toNat)) a : Nat)) := by
  induction ds with
  | nil =>
    intro _ a ha
    simp [parseLoop, checked, ha]
  | cons d ds ih =>
    intro hd a ha
    have h1 : toDigit d = some (d.toNat - '0'.toNat) := by
      simp [toDigit, hd d (by simp)]
    have hle := le_digits ds (10 * a + (d.toNat - '0'.toNat))
    rw [List.foldl_cons]
    simp only [parseLoop, h1, Option.bind_eq_bind, Option.bind_some]
    generalize hk : d.toNat - '0'.toNat = k at hle ⊢
    have hstep : s * (a : Int) * 10 + s * (k : Int) = s * ((10 * a + k : Nat) : Int) := by
      rcases hs with rfl | rfl <;> omega
    by_cases hin : InI64 (s * ((10 * a + k : Nat) : Int))
    · have h10 : InI64 (s * (a : Int) * 10) := by
        unfold InI64 at *
        rcases hs with rfl | rfl <;> omega
      rw [show checked (s * (a : Int) * 10) = some (s * (a : Int) * 10) from if_pos h10, Option.bind_some, hstep,
        show checked (s * ((10 * a + k : Nat) : Int)) = some _ from if_pos hin, Option.bind_some]
      exact ih (fun d hd' => hd d (by simp [hd'])) _ hin
    · have hout : ¬ InI64 (s * (ds.foldl (fun n c => 10 * n + (c.toNat - '0'.toNat)) (10 * a + k) : Nat)) := by
        generalize ds.foldl (fun n c => 10 * n + (c.toNat - '0'.toNat)) (10 * a + k) = r at *
        unfold InI64 at *
        rcases hs with rfl | rfl <;> omega
      rw [show checked (s * ((ds.foldl (fun n c => 10 * n + (c.toNat - '0'.toNat)) (10 * a + k) : Nat) : Int)) = none from
        if_neg hout]
      unfold checked
      split
      · rw [Option.bind_some, hstep, if_neg hin]
        rfl
      · rfl

theorem parseLoop_other {s : Int} (ds : List Char) : (¬ ∀ d ∈ ds, d.isDigit = true) →
    ∀ a : Int, parseLoop s a ds = none := by
  induction ds with
  | nil => exact fun h => absurd (by simp) h
  | cons d ds ih =>
    intro h a
    simp only [parseLoop, toDigit]
    split
    · next hd =>
      have h' : ¬ ∀ d ∈ ds, d.isDigit = true := by
        intro hall
        apply h
        intro x hx
        rcases List.mem_cons.mp hx with rfl | hx
        · exact hd
        · exact hall x hx
      simp only [Option.bind_eq_bind, Option.bind_some, ih h']
      cases checked (a * 10) with
      | none => rfl
      | some b => rw [Option.bind_some]; cases checked (b + _) <;> rfl
    · rfl

theorem parseLoop_iff {s : Int} (hs : s = 1 ∨ s = -1) (ds : List Char) (n : Int) :
    parseLoop s 0 ds = some n ↔ (∀ d ∈ ds, d.isDigit = true) ∧ n = s * (decimal ds : Int) ∧ InI64 n := by
  by_cases h : ∀ d ∈ ds, d.isDigit = true
  · have := parseLoop_digits hs ds h 0 (by rcases hs with rfl | rfl <;> decide)
    rw [show s * ((0 : Nat) : Int) = 0 by simp] at this
    rw [this]
    show checked (s * (decimal ds : Int)) = some n ↔ _
    unfold checked
    constructor
    · intro he
      split at he
      · cases he
        exact ⟨h, rfl, by assumption⟩
      · cases he
    · rintro ⟨-, rfl, hin⟩
      rw [if_pos hin]
  · rw [parseLoop_other ds h]
    exact ⟨(nomatch ·), fun he => absurd he.1 h⟩

theorem not_sign_of_digits {c : Char} (h : c.isDigit = true) : c ≠ '+' ∧ c ≠ '-' := by
  constructor <;> (rintro rfl; revert h; decide)

end Natives

open Natives

/-- **C55**: exactly the decimal notations of 64-bit integers are read as integers, and as the number they
denote. -/
theorem parsed_integers (s : String) (n : Int) : parseI64 s = some n ↔ IsDecimal s n ∧ InI64 n := by
  unfold parseI64 IsDecimal
  generalize s.toList = cs
  split
  · refine ⟨(nomatch ·), ?_⟩
    rintro ⟨⟨ds, h1, -, (⟨rfl | h, -⟩ | ⟨h, -⟩)⟩, -⟩
    · exact absurd rfl h1
    · cases h
    · cases h
  · refine ⟨(nomatch ·), ?_⟩
    rintro ⟨⟨ds, h1, h2, (⟨rfl | h, -⟩ | ⟨h, -⟩)⟩, -⟩
    · exact absurd rfl (not_sign_of_digits (h2 '+' (by simp))).1
    · cases h; exact absurd rfl h1
    · cases h
  · refine ⟨(nomatch ·), ?_⟩
    rintro ⟨⟨ds, h1, h2, (⟨rfl | h, -⟩ | ⟨h, -⟩)⟩, -⟩
    · exact absurd rfl (not_sign_of_digits (h2 '-' (by simp))).2
    · cases h
    · cases h; exact absurd rfl h1
  · next cs hne =>
    rw [parseLoop_iff (.inl rfl), Int.one_mul]
    constructor
    · rintro ⟨h1, h2, h3⟩
      exact ⟨⟨cs, fun h => hne (by rw [h]), h1, .inl ⟨.inr rfl, h2⟩⟩, h3⟩
    · rintro ⟨⟨ds, h1, h2, (⟨rfl | h, h3⟩ | ⟨h, -⟩)⟩, h4⟩
      · exact absurd rfl (not_sign_of_digits (h2 '+' (by simp))).1
      · cases h; exact ⟨h2, h3, h4⟩
      · cases h
  · next cs hne =>
    rw [parseLoop_iff (.inr rfl)]
    constructor
    · rintro ⟨h1, h2, h3⟩
      exact ⟨⟨cs, fun h => hne (by rw [h]), h1, .inr ⟨rfl, by omega⟩⟩, h3⟩
    · rintro ⟨⟨ds, h1, h2, (⟨rfl | h, h3⟩ | ⟨h, h3⟩)⟩, h4⟩
      · exact absurd rfl (not_sign_of_digits (h2 '-' (by simp))).2
      · cases h
      · cases h; exact ⟨h2, by omega, h4⟩
  · next hne _ _ hp hm =>
    rw [parseLoop_iff (.inl rfl), Int.one_mul]
    constructor
    · rintro ⟨h1, h2, h3⟩
      exact ⟨⟨_, hne, h1, .inl ⟨.inl rfl, h2⟩⟩, h3⟩
    · rintro ⟨⟨ds, h1, h2, (⟨rfl | h, h3⟩ | ⟨h, h3⟩)⟩, h4⟩
      · exact ⟨h2, h3, h4⟩
      · exact absurd h (hp _)
      · exact absurd h (hm _)

/-- **C55**: the text of an integer is its decimal notation. -/
theorem shown_integers (n : Int) : IsDecimal (showI64 n) n := by
  have hd : ∀ c ∈ Nat.toDigits 10 n.natAbs, c.isDigit = true := fun c hc => Nat.isDigit_of_mem_toDigits (b := 10) (by decide) (by decide) hc
  have hv : decimal (Nat.toDigits 10 n.natAbs) = n.natAbs := by
    have := Nat.ofDigitChars_ten_toDigits (n := n.natAbs)
    rw [Nat.ofDigitChars_eq_foldl] at this
    exact this
  refine ⟨Nat.toDigits 10 n.natAbs, Nat.toDigits_ne_nil, hd, ?_⟩
  rw [hv]
  unfold showI64
  rw [String.toList_ofList]
  split
  · exact .inr ⟨rfl, by omega⟩
  · exact .inl ⟨.inl rfl, by omega⟩

/-- **C55**: reading the text of an integer gives it back. -/
theorem integer_text (n : Int) (h : InI64 n) : parseI64 (showI64 n) = some n :=
  (parsed_integers _ _).mpr ⟨shown_integers n, h⟩

/-- **C55**: different integers have different texts. -/
theorem integer_text_injective (m n : Int) (hm : InI64 m) (hn : InI64 n) (h : showI64 m = showI64 n) : m = n := by
  have h1 := integer_text m hm
  rw [h, integer_text n hn] at h1
  exact (Option.some.inj h1).symm

example : parseI64 "-9223372036854775808" = some (-(2 ^ 63)) := by decide +kernel
example : parseI64 "9223372036854775808" = none := by decide +kernel
example : showI64 (-120) = "-120" ∧ parseI64 "+0012" = some 12 := by decide +kernel

/-! ## Calls of the built-in classes -/

namespace Natives

/-- What the method `name` of the built-in class `cls` of a new runtime does; `none` if there is no such
class or no such native function. -/
def invoke (constant : String → Float) (lib : FloatLib) (checks : Bool) (cls name : String) (args : List Value)
    (h : Heap) : Option (Outcome Value × Heap) :=
  match (machine constant).globals.get cls with
  | some (.cls c) =>
    match (machine constant).heap.method c name with
    | some (.fnNative i) => some (native lib checks i args h)
    | _ => none
  | _ => none

end Natives

section

variable {constant : String → Float} {lib : FloatLib} {checks : Bool} (h : Heap)

/-- **C55**: `Int(String(n))` is `n`, and `String` gives the decimal notation. -/
theorem int_of_string (n : Int) (hn : InI64 n) (c d : Value) : ∃ s, IsDecimal s n ∧
    invoke constant lib checks "String" "new" [c, .int n] h = some (.ok (.str s), h) ∧
    invoke constant lib checks "Int" "to_string" [.int n] h = some (.ok (.str s), h) ∧
    invoke constant lib checks "Int" "new" [d, .str s] h = some (.ok (.int n), h) := by
  refine ⟨showI64 n, shown_integers n, ?_, ?_, ?_⟩
  · kernel_rfl
  · kernel_rfl
  · have : invoke constant lib checks "Int" "new" [d, .str (showI64 n)] h =
        some (.ok (((parseI64 (showI64 n)).map .int).getD .null), h) := by kernel_rfl
    rw [this, integer_text n hn]
    rfl

/-- **C55**: `Int(s)` is the number that `s` denotes, or `null`; never an error. -/
theorem int_of_text (s : String) (c : Value) :
    (∃ n, IsDecimal s n ∧ InI64 n ∧
      invoke constant lib checks "Int" "new" [c, .str s] h = some (.ok (.int n), h)) ∨
    (¬ ∃ n, IsDecimal s n ∧ InI64 n) ∧
      invoke constant lib checks "Int" "new" [c, .str s] h = some (.ok .null, h) := by
  have : invoke constant lib checks "Int" "new" [c, .str s] h =
      some (.ok (((parseI64 s).map .int).getD .null), h) := by kernel_rfl
  rw [this]
  cases hp : parseI64 s with
  | some n =>
    have := (parsed_integers s n).mp hp
    exact .inl ⟨n, this.1, this.2, rfl⟩
  | none =>
    refine .inr ⟨?_, rfl⟩
    rintro ⟨n, h1, h2⟩
    rw [(parsed_integers s n).mpr ⟨h1, h2⟩] at hp
    cases hp

example : IsDecimal "-120" (-120) := ⟨['1', '2', '0'], by decide, by decide, .inr ⟨by decide, by decide⟩⟩

/-- **C55**: `Bool(String(b))` is `b`. -/
theorem bool_of_string (b : Bool) (c d : Value) : ∃ s,
    invoke constant lib checks "String" "new" [c, .bool b] h = some (.ok (.str s), h) ∧
    invoke constant lib checks "Bool" "new" [d, .str s] h = some (.ok (.bool b), h) := by
  cases b
  · exact ⟨"false", by kernel_rfl, by kernel_rfl⟩
  · exact ⟨"true", by kernel_rfl, by kernel_rfl⟩

/-- **C55**: no other text is a boolean. -/
theorem bool_of_text (s : String) (c : Value) (b : Bool) :
    invoke constant lib checks "Bool" "new" [c, .str s] h = some (.ok (.bool b), h) ↔
      s = if b then "true" else "false" := by
  have : invoke constant lib checks "Bool" "new" [c, .str s] h =
      some (.ok (((parseBool s).map .bool).getD .null), h) := by kernel_rfl
  rw [this]
  unfold parseBool
  by_cases h1 : s = "true"
  · subst h1
    cases b
    · simp
    · simp
  · by_cases h2 : s = "false"
    · subst h2
      cases b
      · simp
      · simp
    · cases b
      · simp [h1, h2]
      · simp [h1, h2]

/-- **C55**: `s + t` on strings is the concatenation. -/
theorem string_add (s t : String) :
    invoke constant lib checks "String" "#add" [.str s, .str t] h = some (.ok (.str (s ++ t)), h) := by
  kernel_rfl

/-! ## C56: integers -/

/-- **C56**: in the debug build, `b.pow(e)` is the power if it fits into 64 bits and a panic otherwise, for
exponents of 32 bits. -/
theorem pow_exact_partial (b e : Int) (hb : InI64 b) (he : 0 ≤ e ∧ e < 2 ^ 32) :
    invoke constant lib true "Int" "pow" [.int b, .int e] h =
      some (if InI64 (b ^ e.toNat) then .ok (.int (b ^ e.toNat))
        else .panic "attempt to multiply with overflow", h) := by
  have : invoke constant lib true "Int" "pow" [.int b, .int e] h =
      some (match powI64 true b (e % 2 ^ 32).toNat with
        | some x => (.ok (.int x), h)
        | none => (.panic "attempt to multiply with overflow", h)) := by kernel_rfl
  rw [this, powI64_checked b _ hb, show e % 2 ^ 32 = e by omega]
  by_cases hi : InI64 (b ^ e.toNat)
  · rw [if_pos hi, if_pos hi]
  · rw [if_neg hi, if_neg hi]

/-- **C56**: in the release build, `b.pow(e)` is the power up to multiples of 2^64; so it is the power
itself if it fits. -/
theorem pow_wraps_partial (b e : Int) (he : 0 ≤ e ∧ e < 2 ^ 32) :
    ∃ r, invoke constant lib false "Int" "pow" [.int b, .int e] h = some (.ok (.int r), h) ∧ InI64 r ∧
      r % 2 ^ 64 = b ^ e.toNat % 2 ^ 64 ∧ (InI64 (b ^ e.toNat) → r = b ^ e.toNat) := by
  have : invoke constant lib false "Int" "pow" [.int b, .int e] h =
      some (match powI64 false b (e % 2 ^ 32).toNat with
        | some x => (.ok (.int x), h)
        | none => (.panic "attempt to multiply with overflow", h)) := by kernel_rfl
  rw [this, show e % 2 ^ 32 = e by omega]
  obtain ⟨r, h1, h2, h3⟩ := powI64_wraps b e.toNat
  have h3' : r % 2 ^ 64 = b ^ e.toNat % 2 ^ 64 := h3
  refine ⟨r, by rw [h1], h2, h3', fun hi => ?_⟩
  generalize b ^ e.toNat = p at *
  unfold InI64 at *
  omega

/-- **C56** fails for other exponents: only their last 32 bits count. -/
theorem pow_cuts_exponents (b e : Int) : invoke constant lib checks "Int" "pow" [.int b, .int e] h =
    invoke constant lib checks "Int" "pow" [.int b, .int (e % 2 ^ 32)] h := by
  have : ∀ e, invoke constant lib checks "Int" "pow" [.int b, .int e] h =
      some (match powI64 checks b (e % 2 ^ 32).toNat with
        | some x => (.ok (.int x), h)
        | none => (.panic "attempt to multiply with overflow", h)) := fun e => by kernel_rfl
  rw [this, this, Int.emod_emod_of_dvd e (Int.dvd_refl _)]

/-- **C56** fails for exponents of more than 32 bits and for negative ones: `2.pow(4294967299)` is 8, and so
is `2.pow(-4294967293)`. -/
theorem pow_wrong :
    invoke constant lib true "Int" "pow" [.int 2, .int 4294967299] h = some (.ok (.int 8), h) ∧
    invoke constant lib true "Int" "pow" [.int 2, .int (-4294967293)] h = some (.ok (.int 8), h) := by
  have h3 := pow_exact_partial (constant := constant) (lib := lib) h 2 3 (by decide) (by decide)
  have hi : InI64 ((2 : Int) ^ (3 : Int).toNat) := by decide
  rw [if_pos hi] at h3
  rw [pow_cuts_exponents, pow_cuts_exponents h 2 (-4294967293)]
  exact ⟨h3, h3⟩

example : InI64 (3 ^ 39) ∧ ¬ InI64 (3 ^ 40) := by decide +kernel

/-- **C56**: `n.abs()` is the absolute value, except that the least integer has none: a panic in the debug
build and the integer itself in the release build. -/
theorem abs_exact (n : Int) (hn : InI64 n) :
    invoke constant lib checks "Int" "abs" [.int n] h =
      some (if n = -(2 ^ 63) then
          if checks then .panic "attempt to compute with overflow" else .ok (.int n)
        else .ok (.int (if 0 ≤ n then n else -n)), h) := by
  have : invoke constant lib checks "Int" "abs" [.int n] h = some (intResult checks n.natAbs, h) := by kernel_rfl
  rw [this]
  unfold intResult
  by_cases hm : n = -(2 ^ 63)
  · subst hm
    rw [if_neg (show ¬ InI64 (((-(2 ^ 63) : Int).natAbs : Nat) : Int) by decide),
      show Int.bmod (((-(2 ^ 63) : Int).natAbs : Nat) : Int) (2 ^ 64) = -(2 ^ 63) by decide, if_pos rfl]
  · have h1 : InI64 (n.natAbs : Int) := by unfold InI64 at *; omega
    have h2 : (n.natAbs : Int) = if 0 ≤ n then n else -n := by split <;> omega
    rw [if_neg hm, if_pos h1, h2]

/-- **C56**: `a.min(b)` and `a.max(b)` are the smaller and the larger of the two. -/
theorem min_max_exact (a b : Int) : ∃ lo hi,
    invoke constant lib checks "Int" "min" [.int a, .int b] h = some (.ok (.int lo), h) ∧
    invoke constant lib checks "Int" "max" [.int a, .int b] h = some (.ok (.int hi), h) ∧
    lo ≤ hi ∧ (lo = a ∧ hi = b ∨ lo = b ∧ hi = a) := by
  refine ⟨if b < a then b else a, if a ≤ b then b else a, by kernel_rfl, by kernel_rfl, ?_, ?_⟩
  · split <;> split <;> omega
  · split <;> split <;> omega

/-- **C56**: exactly one of `n.is_positive()`, `n.is_negative()`, `n == 0` holds. -/
theorem sign_exact (n : Int) : ∃ p q,
    invoke constant lib checks "Int" "is_positive" [.int n] h = some (.ok (.bool p), h) ∧
    invoke constant lib checks "Int" "is_negative" [.int n] h = some (.ok (.bool q), h) ∧
    (p = true ↔ 0 < n) ∧ (q = true ↔ n < 0) :=
  ⟨decide (0 < n), decide (n < 0), by kernel_rfl, by kernel_rfl, by simp, by simp⟩

end

end Dice
