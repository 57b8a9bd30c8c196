import Verif.Gen
import Verif.Parser

/-!
# Floating point numbers

In this version of Lean `Float` has a definition the kernel can see (IEEE 754 binary64, one NaN).  Facts about the
equality of floats that the constants of a program need: numbers that compare equal are the same, except that the two
zeros compare equal.
-/

namespace Dice

open Float.Model Float.Model.UnpackedFloat

/-- A packed float is determined by its three parts. -/
theorem parts_inj {a b : BitVec Format.binary64.numBits} (hs : unpackSign a = unpackSign b) (he : unpackExponent a = unpackExponent b)
    (hm : unpackMantissa a = unpackMantissa b) : a = b := by
  have h1 := congrArg BitVec.toNat hs
  have h2 := congrArg BitVec.toNat he
  have h3 := congrArg BitVec.toNat hm
  simp [unpackSign, unpackExponent, unpackMantissa, Nat.shiftRight_eq_div_pow] at h1 h2 h3
  apply BitVec.eq_of_toNat_eq
  have ha : a.toNat < 18446744073709551616 := a.isLt
  have hb : b.toNat < 18446744073709551616 := b.isLt
  omega

theorem ofBitVec_inj {a b : BitVec 1} (h : Sign.ofBitVec a = Sign.ofBitVec b) : a = b := by
  rcases BitVec.eq_zero_or_eq_one a with rfl | rfl <;> rcases BitVec.eq_zero_or_eq_one b with rfl | rfl <;> first | rfl | cases h

theorem toNat_implicit (m : BitVec 52) : (1#1 ++ m).toNat = 2 ^ 52 + m.toNat := by
  rw [BitVec.toNat_append, ← Nat.shiftLeft_add_eq_or_of_lt m.isLt, Nat.shiftLeft_eq]
  rfl

/-- Two valid packed floats that unpack to the same number are the same. -/
theorem unpack_inj {a b : BitVec Format.binary64.numBits} (va : Format.binary64.Valid a) (vb : Format.binary64.Valid b)
    (h : UnpackedFloat.unpack Format.binary64 a = UnpackedFloat.unpack Format.binary64 b) : a = b := by
  unfold UnpackedFloat.unpack at h
  dsimp only at h
  split at h <;> rename_i ea
  · split at h <;> rename_i ma
    · split at h <;> rename_i eb
      · split at h <;> rename_i mb
        · injection h with h
          exact parts_inj (ofBitVec_inj h) (ea.trans eb.symm) (ma.trans mb.symm)
        · cases h
      · split at h
        · split at h <;> cases h
        · cases h
    · split at h <;> rename_i eb
      · split at h <;> rename_i mb
        · cases h
        · rw [va.eq_packedNaN ea ma, vb.eq_packedNaN eb mb]
      · split at h
        · split at h <;> cases h
        · cases h
  · split at h <;> rename_i za
    · split at h <;> rename_i ma
      · split at h <;> rename_i eb
        · split at h <;> cases h
        · split at h <;> rename_i zb
          · split at h <;> rename_i mb
            · injection h with h
              exact parts_inj (ofBitVec_inj h) (za.trans zb.symm) (ma.trans mb.symm)
            · cases h
          · cases h
      · split at h <;> rename_i eb
        · split at h <;> cases h
        · split at h <;> rename_i zb
          · split at h <;> rename_i mb
            · cases h
            · injection h with h1 h2 h3
              exact parts_inj (ofBitVec_inj h1) (za.trans zb.symm) (BitVec.eq_of_toNat_eq h2)
          · injection h with h1 h2 h3
            have := (unpackMantissa a).isLt
            have h2' := h2.trans (toNat_implicit _)
            omega
    · split at h <;> rename_i eb
      · split at h <;> cases h
      · split at h <;> rename_i zb
        · split at h <;> rename_i mb
          · cases h
          · injection h with h1 h2 h3
            have := (unpackMantissa b).isLt
            have h2' := (toNat_implicit _).symm.trans h2
            omega
        · injection h with h1 h2 h3
          refine parts_inj (ofBitVec_inj h1) ?_ ?_
          · apply BitVec.eq_of_toNat_eq; omega
          · apply BitVec.eq_of_toNat_eq
            have h2' := (toNat_implicit _).symm.trans (h2.trans (toNat_implicit _))
            omega

/-- Numbers that compare equal are the same, or both are zeros. -/
theorem compare_eq {a b : UnpackedFloat} (h : a.beq b = true) : a = b ∨ ∃ s t, a = .zero s ∧ b = .zero t := by
  unfold UnpackedFloat.beq at h
  have h : a.compare b = some .eq := by simpa using h
  have sg : ∀ s t : Sign, compare s t = .eq → s = t := by intro s t; cases s <;> cases t <;> first | exact fun _ => rfl | (intro h; cases h)
  have fin : ∀ {m n : Nat} {d e : Int}, (compare d e).then (compare m n) = .eq → d = e ∧ m = n := by
    intro m n d e h
    rw [Ordering.then_eq_eq] at h
    exact ⟨Int.compare_eq_eq.1 h.1, Nat.compare_eq_eq.1 h.2⟩
  cases a with
  | notANumber => cases b <;> cases h
  | infinity s =>
    cases b with
    | infinity t => injection h with h; exact .inl (by rw [sg _ _ h])
    | _ => cases s <;> cases h
  | zero s =>
    cases b with
    | zero t => exact .inr ⟨s, t, rfl, rfl⟩
    | notANumber => cases h
    | infinity t => cases t <;> cases h
    | finite t => cases t <;> cases h
  | finite s m d hm =>
    cases b with
    | zero t => cases s <;> cases h
    | notANumber => cases s <;> cases h
    | infinity t => cases s <;> cases t <;> cases h
    | finite t n e hn =>
      cases s <;> cases t
      · injection h with h
        obtain ⟨rfl, rfl⟩ := fin (by simpa using congrArg Ordering.swap h)
        exact .inl rfl
      · cases h
      · cases h
      · injection h with h
        obtain ⟨rfl, rfl⟩ := fin h
        exact .inl rfl

theorem unpack_zero {s : Sign} {b : BitVec Format.binary64.numBits} (h : UnpackedFloat.unpack Format.binary64 b = .zero s) :
    b = packedZero Format.binary64 s := by
  have hz : UnpackedFloat.unpack Format.binary64 (packedZero Format.binary64 s) = .zero s := by cases s <;> rfl
  have hv : ∀ b, UnpackedFloat.unpack Format.binary64 b = .zero s → Format.binary64.Valid b := by
    intro b h
    refine ⟨fun e m => ?_⟩
    simp [UnpackedFloat.unpack, e, m] at h
  exact unpack_inj (hv _ h) (hv _ hz) (h.trans hz.symm)

theorem bits_inj {f g : Float} (h : f.toModel.toBits = g.toModel.toBits) : f = g := by
  cases f with | ofModel f => cases g with | ofModel g =>
  cases f; cases g
  cases h
  rfl

theorem zero_float {f : Float} {s : Sign} (h : f.toModel.unpack = .zero s) : f = 0.0 ∨ f = -0.0 := by
  have := unpack_zero h
  cases s with
  | positive => exact .inl (bits_inj (UInt64.toBitVec_inj.1 (this.trans (by decide))))
  | negative => exact .inr (bits_inj (UInt64.toBitVec_inj.1 (this.trans (by decide))))

/-- Floats that compare equal are the same, or both are zeros. -/
theorem float_same {f g : Float} (h : (g == f) = true) : g = f ∨ (g = 0.0 ∨ g = -0.0) ∧ (f = 0.0 ∨ f = -0.0) := by
  have h' : g.toModel.unpack.beq f.toModel.unpack = true := h
  rcases compare_eq h' with e | ⟨s, t, e1, e2⟩
  · exact .inl (bits_inj (UInt64.toBitVec_inj.1 (unpack_inj g.toModel.valid f.toModel.valid e)))
  · exact .inr ⟨zero_float e1, zero_float e2⟩

/-- The instruction of a float literal pushes the number that is written, unless this is -0.0. -/
theorem literal_value {f : Float} {c : Code} (h : FloatCode f c) (hf : f ≠ -0.0) :
    (f = 0.0 ∧ c = .op .pushF0) ∨ (f = 1.0 ∧ c = .op .pushF1) ∨ c = .instr (.const .pushConst (.float f)) := by
  cases h with
  | zero h =>
    rcases float_same h with e | ⟨e | e, _⟩
    · exact .inl ⟨e, rfl⟩
    · exact .inl ⟨e, rfl⟩
    · exact absurd e hf
  | one h =>
    rcases float_same h with e | ⟨_, e | e⟩
    · exact .inr (.inl ⟨e, rfl⟩)
    · exact absurd e (by decide)
    · exact absurd e (by decide)
  | other h h0 =>
    rcases h with rfl | h
    · exact .inr (.inr rfl)
    · rcases float_same h with rfl | ⟨_, rfl | e⟩
      · exact .inr (.inr rfl)
      · exact absurd h0 (by decide)
      · exact absurd e hf

/-! ## Float literals of a source text are not negative -/

/-- NaN, or a number with positive sign. -/
def Plus : UnpackedFloat → Prop
  | .notANumber => True
  | .infinity s => s = .positive
  | .zero s => s = .positive
  | .finite s _ _ _ => s = .positive

theorem sign_components (e : BitVec 11) (m : BitVec 52) :
    unpackSign (spec := Format.binary64) (packComponents Format.binary64 .positive e m) = 0#1 := by
  apply BitVec.eq_of_toNat_eq
  have he := e.isLt
  have hm := m.isLt
  have h : (0#1 ++ e ++ m).toNat = 2 ^ 52 * e.toNat + m.toNat := by
    rw [BitVec.toNat_append, ← Nat.shiftLeft_add_eq_or_of_lt hm, Nat.shiftLeft_eq, BitVec.toNat_append]
    simp [Nat.mul_comm]
  simp only [unpackSign, packComponents, Sign.toBitVec, BitVec.toNat_cast, BitVec.extractLsb_toNat, Nat.shiftRight_eq_div_pow]
  have h' : (2 ^ 52 * e.toNat + m.toNat) / 2 ^ 63 = 0 := by omega
  rw [show (0#1 ++ e ++ m).toNat = _ from h]
  simp [h']

theorem pack_plus {u : UnpackedFloat} (h : Plus u) : unpackSign (UnpackedFloat.pack Format.binary64 u) = 0#1 := by
  cases u with
  | notANumber => exact sign_components _ _
  | infinity s => cases h; exact sign_components _ _
  | zero s => cases h; exact sign_components _ _
  | finite s m e hm =>
    cases h
    unfold UnpackedFloat.pack
    dsimp only
    split
    · exact sign_components _ _
    · split <;> exact sign_components _ _

theorem unpack_plus {b : BitVec Format.binary64.numBits} (h : unpackSign b = 0#1) : Plus (UnpackedFloat.unpack Format.binary64 b) := by
  unfold UnpackedFloat.unpack
  dsimp only
  rw [h]
  split
  · split <;> first | rfl | trivial
  · split
    · split <;> rfl
    · rfl

theorem round_plus (m : Nat) (e : Int) (a : Accuracy) : Plus (roundWithAccuracy Format.binary64 .positive m e a) := by
  unfold roundWithAccuracy
  dsimp only
  split <;> rfl

theorem div_plus {a b : UnpackedFloat} (ha : Plus a) (hb : Plus b) : Plus (UnpackedFloat.div Format.binary64 a b) := by
  cases a <;> cases b <;> cases ha <;> cases hb <;> first | trivial | rfl | exact round_plus _ _ _

theorem mul_plus {a b : UnpackedFloat} (ha : Plus a) (hb : Plus b) : Plus (UnpackedFloat.mul Format.binary64 a b) := by
  cases a <;> cases b <;> cases ha <;> cases hb <;> first | trivial | rfl | exact round_plus _ _ _

theorem ofNat_plus (n : Nat) : Plus (UnpackedFloat.ofNat Format.binary64 n) := by
  unfold UnpackedFloat.ofNat UnpackedFloat.ofInt normalize
  split
  · rename_i h
    rw [Int.compare_eq_lt] at h
    omega
  · rfl
  · exact round_plus _ _ _

theorem ofScientific_plus (m : Nat) (e : Int) : Plus (UnpackedFloat.ofScientific Format.binary64 m e) := by
  unfold UnpackedFloat.ofScientific
  split
  · rfl
  · split
    · rfl
    · split
      · rfl
      · split
        · exact mul_plus (Eq.refl Sign.positive) (Eq.refl Sign.positive)
        · exact div_plus (Eq.refl Sign.positive) (Eq.refl Sign.positive)

/-- The number of a float literal is not the negative zero. -/
theorem parseFloat_plus (s : String) : unpackSign (spec := Format.binary64) (Parser.parseFloat s).toModel.toBits.toBitVec = 0#1 := by
  unfold Parser.parseFloat Float.ofScientific
  dsimp only
  split
  · rename_i h
    have ht : ∀ i : Fin 23, unpackSign (spec := Format.binary64) (Float.exactlyRepresentablePowersOfTen[i.val]'(by
        have := i.isLt; simp [Float.exactlyRepresentablePowersOfTen])).toModel.toBits.toBitVec = 0#1 := by decide
    refine pack_plus (div_plus (unpack_plus (pack_plus ?_)) (unpack_plus (ht ⟨_, by omega⟩)))
    exact ofNat_plus _
  · exact pack_plus (ofScientific_plus _ _)

theorem parseFloat_ne (s : String) : Parser.parseFloat s ≠ -0.0 := by
  intro h
  have := parseFloat_plus s
  rw [h] at this
  revert this
  decide

end Dice
