import Verif.Assembler

/-!
# Properties of opcodes, jumps, constants and decoding (C05 – C09)
-/

namespace Dice

/-! ## C05: opcode encoding -/

/-- C05: a written opcode is read back as itself. -/
theorem opcode_roundtrip (o : Opcode) : Opcode.ofByte o.toByte = some o := by
  cases o <;> rfl

/-- C05: distinct opcodes have distinct bytes. -/
theorem opcode_toByte_injective (o o' : Opcode) (h : o.toByte = o'.toByte) : o = o' := by
  have := congrArg Opcode.ofByte h
  rw [opcode_roundtrip, opcode_roundtrip] at this
  exact Option.some.inj this

/-- C05: what is read is the opcode with that byte, never another. -/
theorem opcode_ofByte_sound (b : UInt8) (o : Opcode) (h : Opcode.ofByte b = some o) :
    o.toByte = b := by
  have := List.find?_some h
  simpa using this

theorem opcode_all_complete (o : Opcode) : o ∈ Opcode.all := by
  cases o <;> simp [Opcode.all]

/-- C05: a byte is rejected exactly if it is no opcode's byte; these are the bytes from 62 on. -/
theorem opcode_reject_iff (b : UInt8) :
    (Opcode.ofByte b = none ↔ ∀ o : Opcode, o.toByte ≠ b) ∧
    (Opcode.ofByte b = none ↔ 62 ≤ b.toNat) := by
  have h1 : Opcode.ofByte b = none ↔ ∀ o : Opcode, o.toByte ≠ b := by
    unfold Opcode.ofByte
    rw [List.find?_eq_none]
    constructor
    · intro h o
      simpa using h o (opcode_all_complete o)
    · intro h o _
      simpa using h o
  refine ⟨h1, ?_⟩
  rw [h1]
  constructor
  · intro h
    refine Decidable.byContradiction fun hlt => ?_
    have hlt : b.toNat < 62 := by omega
    have key : ∀ n : Fin 62, ∃ o : Opcode, o ∈ Opcode.all ∧ o.toByte = UInt8.ofNat n.val := by
      decide
    obtain ⟨o, -, ho⟩ := key ⟨b.toNat, hlt⟩
    exact h o (by rw [ho]; simp)
  · intro h o ho
    have : o.toByte.toNat < 62 := by cases o <;> decide
    rw [ho] at this
    omega

example : Opcode.ofByte 53 = some .jumpIfTrue ∧ Opcode.ofByte 62 = none := by decide

/-! ## C06: jumps -/

theorem encodeI16_length (x : Int) : (encodeI16 x).length = 2 := rfl

/-- A 16-bit operand survives the byte encoding. -/
theorem i16_roundtrip (x : Int) (h1 : -32768 ≤ x) (h2 : x ≤ 32767) :
    ∃ hi lo, encodeI16 x = [hi, lo] ∧ decodeI16 hi lo = x := by
  refine ⟨_, _, rfl, ?_⟩
  simp only [decodeI16, asI16, UInt8.toNat_ofNat']
  have h3 : ((x % 65536).toNat : Int) = x % 65536 := Int.toNat_of_nonneg (by omega)
  generalize (x % 65536).toNat = n at h3
  have h4 : n < 65536 := by omega
  have h5 : ((n / 256 % 2 ^ 8 : Nat) : Int) * 256 + ((n % 256 % 2 ^ 8 : Nat) : Int) = n := by omega
  rw [h5, h3, Int.bmod_def]
  omega

theorem asI16_of_range (x : Int) (h1 : -32768 ≤ x) (h2 : x ≤ 32767) : asI16 x = x := by
  unfold asI16; rw [Int.bmod_def]; omega

theorem asI16_range (x : Int) : -32768 ≤ asI16 x ∧ asI16 x ≤ 32767 := by
  unfold asI16; rw [Int.bmod_def]; omega

/-- The operand read at `p` in any buffer that has the encoding of `x` there. -/
theorem readOffset_encode (pre post : List UInt8) (x : Int) (h1 : -32768 ≤ x) (h2 : x ≤ 32767) :
    readOffset (pre ++ encodeI16 x ++ post) pre.length = some x := by
  obtain ⟨hi, lo, he, hd⟩ := i16_roundtrip x h1 h2
  simp [readOffset, he, hd]

/-- Where the interpreter continues after executing the jump whose operand is at `p`
(dice-runtime/src/interpreter/mod.rs:135-140: read the offset, then move the cursor by it). -/
def jumpTarget (data : List UInt8) (p : Nat) : Option Nat :=
  (readOffset data p).map fun off => offsetPosition (p + 2) off

theorem patchJump_eq (a : Asm) (p : Nat) (h : p + 2 ≤ a.data.length) :
    a.patchJump p = .ok { a with data := (a.data.take p ++
      encodeI16 (asI16 (a.data.length - p - 2)) ++ a.data.drop (p + 2)) } := by
  unfold Asm.patchJump; rw [if_pos h]

theorem jumpBack_eq (a : Asm) (start : Nat) (h : start ≤ a.data.length)
    (h2 : asI16 ((a.data.length : Int) + 3 - start) ≠ -32768) :
    a.jumpBack start = .ok { a with data := (a.data ++ [Opcode.jump.toByte] ++
      encodeI16 (-(asI16 ((a.data.length : Int) + 3 - start)))) } := by
  unfold Asm.jumpBack
  have hl : (a.op .jump).data.length = a.data.length + 1 := by simp [Asm.op, Asm.putU8]
  have he : (((a.data.length + 1 : Nat) : Int) - start + 2) = (a.data.length : Int) + 3 - start := by
    omega
  simp only [hl, he]
  rw [if_neg (by omega), if_neg h2]
  rfl

/-- C06/C07: emit a forward jump, then emit any code, then patch it: with any code after that the
jump goes to the patch point *if and only if* the distance fits 15 bits.  Patching changes only the
two operand bytes. -/
theorem forward_jump_lands_iff (a : Asm) (o : Opcode) (mid post : List UInt8)
    (hsmall : a.data.length + mid.length + 3 < 2 ^ 63) :
    let (a1, p) := a.jump o
    let a2 : Asm := { a1 with data := a1.data ++ mid }
    ∃ a3, a2.patchJump p = .ok a3 ∧
      a3.data.length = a2.data.length ∧ a3.constants = a2.constants ∧
      (∀ i, i ≠ p → i ≠ p + 1 → a3.data[i]? = a2.data[i]?) ∧
      (jumpTarget (a3.data ++ post) p = some a2.data.length ↔ mid.length ≤ 32767) := by
  have hlen : (a.data ++ [o.toByte]).length = a.data.length + 1 := by simp
  have hle : (a.data ++ [o.toByte]).length + 2 ≤
      (a.data ++ [o.toByte] ++ encodeI16 0 ++ mid).length := by
    simp [encodeI16_length]; omega
  simp only [Asm.jump, Asm.op, Asm.putU8]
  rw [patchJump_eq _ _ hle]
  have htake : (a.data ++ [o.toByte] ++ encodeI16 0 ++ mid).take (a.data ++ [o.toByte]).length
      = a.data ++ [o.toByte] := by
    rw [List.append_assoc (a.data ++ [o.toByte]), List.take_left]
  have hdrop : (a.data ++ [o.toByte] ++ encodeI16 0 ++ mid).drop
      ((a.data ++ [o.toByte]).length + 2) = mid := by
    rw [← List.drop_drop, List.append_assoc (a.data ++ [o.toByte]), List.drop_left]
    rfl
  refine ⟨_, rfl, ?_, rfl, ?_, ?_⟩
  · simp only [htake, hdrop]
    simp [encodeI16_length]
  · intro i h1 h2
    simp only [htake, hdrop]
    rw [hlen] at h1 h2
    simp only [List.append_assoc]
    by_cases hi : i < a.data.length
    · rw [List.getElem?_append_left hi, List.getElem?_append_left hi]
    · have key : ∀ l : List UInt8, (a.data ++ l)[i]? = l[i - a.data.length]? :=
        fun l => List.getElem?_append_right (by omega)
      rw [key, key]
      generalize hj : i - a.data.length = j
      match j with
      | 0 => rfl
      | 1 => omega
      | 2 => omega
      | j + 3 => rfl
  · simp only [htake, hdrop]
    have hd : ((a.data ++ [o.toByte] ++ encodeI16 0 ++ mid).length : Int)
        - ((a.data ++ [o.toByte]).length : Nat) - 2 = (mid.length : Int) := by
      simp [encodeI16_length]; omega
    rw [hd, List.append_assoc (a.data ++ [o.toByte] ++ _)]
    unfold jumpTarget
    rw [readOffset_encode _ _ _ (asI16_range _).1 (asI16_range _).2]
    have hl : (a.data ++ [o.toByte] ++ encodeI16 0 ++ mid).length
        = a.data.length + mid.length + 3 := by
      simp [encodeI16_length]; omega
    rw [hl, hlen]
    simp only [Option.map_some, Option.some.injEq, offsetPosition]
    have hr := asI16_range mid.length
    constructor
    · intro h
      have : asI16 mid.length = mid.length := by omega
      omega
    · intro h
      rw [asI16_of_range _ (by omega) (by omega)]
      omega

/-- C06: a backward jump goes exactly to the recorded loop start, whatever code follows, as long as the
distance (from the loop start to the end of the jump) is at most 32767; it only appends. -/
theorem backward_jump_lands (a : Asm) (start : Nat) (post : List UInt8)
    (hs : start ≤ a.data.length) (hd : a.data.length + 3 - start ≤ 32767)
    (hsmall : a.data.length < 2 ^ 63) :
    ∃ a', a.jumpBack start = .ok a' ∧ a'.constants = a.constants ∧
      a'.data.length = a.data.length + 3 ∧
      (∀ i, i < a.data.length → a'.data[i]? = a.data[i]?) ∧
      readInstruction a'.data a.data.length = some (some .jump) ∧
      jumpTarget (a'.data ++ post) (a.data.length + 1) = some start := by
  have hlen : (a.data ++ [Opcode.jump.toByte]).length = a.data.length + 1 := by simp
  have hx : asI16 ((a.data.length : Int) + 3 - start) = (a.data.length : Int) + 3 - start := by
    rw [asI16_of_range] <;> omega
  rw [jumpBack_eq a start hs (by omega), hx]
  refine ⟨_, rfl, rfl, ?_, ?_, ?_, ?_⟩
  · simp [encodeI16_length]
  · intro i hi
    simp only [List.append_assoc]
    rw [List.getElem?_append_left hi]
  · simp [readInstruction, opcode_roundtrip]
  · unfold jumpTarget
    simp only []
    conv => lhs; rw [← hlen]
    rw [readOffset_encode _ _ _ (by omega) (by omega), hlen]
    simp only [Option.map_some, Option.some.injEq, offsetPosition]
    omega

/-- A forward jump over 3 bytes and a backward jump to position 1. -/
example :
    (let (a1, p) := (Asm.mk [] [7]).jump .jumpIfFalse
     let a2 : Asm := { a1 with data := a1.data ++ [1, 2, 3] }
     match a2.patchJump p with
     | .ok a3 => jumpTarget a3.data p
     | .error _ => none) = some 7 ∧
    (match (Asm.mk [] [7, 8, 9]).jumpBack 1 with
     | .ok a => jumpTarget a.data 4
     | .error _ => none) = some 1 := by decide

/-- C07 (negation, assembler level): with 32768 bytes between jump and patch point the jump is emitted
without an error and goes somewhere else. -/
theorem oversized_jump_silently_wrong :
    ∃ (a : Asm) (mid : List UInt8),
      let (a1, p) := a.jump .jump
      let a2 : Asm := { a1 with data := a1.data ++ mid }
      ∃ a3, a2.patchJump p = .ok a3 ∧ jumpTarget a3.data p ≠ some a2.data.length := by
  refine ⟨{}, List.replicate 32768 0, ?_⟩
  have h := forward_jump_lands_iff {} .jump (List.replicate 32768 0) []
    (by simp only [List.length_replicate, List.length_nil]; decide)
  revert h
  simp only [List.append_nil]
  rintro ⟨a3, h1, -, -, -, h5⟩
  refine ⟨a3, h1, fun h => ?_⟩
  have := h5.mp h
  simp only [List.length_replicate] at this
  omega

/-! ## C08: constant pool -/

/-- No two stored constants compare equal. -/
def NoDupConsts (cs : List Const) : Prop := cs.Pairwise (fun x y => x.beq y = false)

/-- Pool built by a sequence of successful `make_constant` calls; the list is the history
(constant, index handed out). -/
inductive PoolRun : Asm → List (Const × UInt8) → Prop where
  | start (data) : PoolRun { data := data } []
  | add {a a' h c i} : PoolRun a h → a.makeConstant c = .ok (i, a') → PoolRun a' (h ++ [(c, i)])

theorem makeConstant_ok {a a' : Asm} {c : Const} {i : UInt8} (h : a.makeConstant c = .ok (i, a')) :
    a'.data = a.data ∧
    ((a' = a ∧ ∃ c', a.constants[i.toNat]? = some c' ∧ c'.beq c = true) ∨
     ((∀ c' ∈ a.constants, c'.beq c = false) ∧ a'.constants = a.constants ++ [c] ∧
       i.toNat = a.constants.length ∧ a.constants.length ≤ 255)) := by
  unfold Asm.makeConstant at h
  split at h
  · rename_i pos hpos
    split at h
    · cases h
    · cases h
      refine ⟨rfl, .inl ⟨rfl, ?_⟩⟩
      rw [List.findIdx?_eq_some_iff_getElem] at hpos
      obtain ⟨hlt, hb, -⟩ := hpos
      refine ⟨a.constants[pos], ?_, hb⟩
      rw [UInt8.toNat_ofNat', Nat.mod_eq_of_lt (by omega)]
      simp [hlt]
  · rename_i hnone
    simp only [List.length_append, List.length_singleton, Nat.add_sub_cancel] at h
    split at h
    · cases h
    · cases h
      refine ⟨rfl, .inr ⟨?_, rfl, ?_, by omega⟩⟩
      · simpa [List.findIdx?_eq_none_iff] using hnone
      · rw [UInt8.toNat_ofNat', Nat.mod_eq_of_lt (by omega)]

/-- C08: after any sequence of additions, every index handed out still holds a constant equal to (or the
very) constant it was handed out for, no two stored constants are equal, and the pool has at most
256 entries. -/
theorem constant_pool_faithful {a : Asm} {h : List (Const × UInt8)} (hr : PoolRun a h) :
    (∀ p ∈ h, ∃ c', a.constants[p.2.toNat]? = some c' ∧ (c' = p.1 ∨ c'.beq p.1 = true)) ∧
    NoDupConsts a.constants ∧ a.constants.length ≤ 256 := by
  induction hr with
  | start => simp [NoDupConsts]
  | @add a a' h c i _ hm ih =>
    obtain ⟨ih1, ih2, ih3⟩ := ih
    obtain ⟨-, hcase⟩ := makeConstant_ok hm
    rcases hcase with ⟨rfl, c', hc', hb⟩ | ⟨hnew, hcs, hi, hlen⟩
    · refine ⟨?_, ih2, ih3⟩
      intro p hp
      rcases List.mem_append.mp hp with hp | hp
      · exact ih1 p hp
      · simp only [List.mem_singleton] at hp
        subst hp
        exact ⟨c', hc', .inr hb⟩
    · refine ⟨?_, ?_, ?_⟩
      · intro p hp
        rcases List.mem_append.mp hp with hp | hp
        · obtain ⟨c', h1, h2⟩ := ih1 p hp
          refine ⟨c', ?_, h2⟩
          rw [hcs, List.getElem?_append_left]
          · exact h1
          · exact (List.getElem?_eq_some_iff.mp h1).1
        · simp only [List.mem_singleton] at hp
          subst hp
          exact ⟨c, by simp [hcs, hi], .inl rfl⟩
      · rw [hcs]
        unfold NoDupConsts
        rw [List.pairwise_append]
        refine ⟨ih2, by simp, ?_⟩
        intro x hx y hy
        simp only [List.mem_singleton] at hy
        subst hy
        exact hnew x hx
      · rw [hcs]; simp; omega

/-- C08: one addition never changes what is stored at an existing index. -/
theorem constant_pool_stable {a a' : Asm} {c : Const} {i : UInt8} (h : a.makeConstant c = .ok (i, a'))
    (j : Nat) (hj : j < a.constants.length) : a'.constants[j]? = a.constants[j]? := by
  obtain ⟨-, ⟨rfl, -⟩ | ⟨-, hcs, -, -⟩⟩ := makeConstant_ok h
  · rfl
  · rw [hcs, List.getElem?_append_left hj]

/-- C08: an error is reported exactly when no stored constant with index below 256 is equal and there
is no free index. For a pool of at most 256 entries: exactly when the constant is new and the pool
full. -/
theorem constant_pool_error_iff (a : Asm) (c : Const) (hlen : a.constants.length ≤ 256) :
    a.makeConstant c = .error .tooManyConstants ↔
      (∀ c' ∈ a.constants, c'.beq c = false) ∧ a.constants.length = 256 := by
  unfold Asm.makeConstant
  split
  · rename_i pos hpos
    rw [List.findIdx?_eq_some_iff_getElem] at hpos
    obtain ⟨hlt, hb, -⟩ := hpos
    rw [if_neg (by omega)]
    constructor
    · intro h; cases h
    · rintro ⟨h, -⟩
      have := h _ (List.getElem_mem hlt)
      rw [this] at hb; cases hb
  · rename_i hnone
    have hnone : ∀ c' ∈ a.constants, c'.beq c = false := by
      simpa [List.findIdx?_eq_none_iff] using hnone
    simp only [List.length_append, List.length_singleton, Nat.add_sub_cancel]
    split
    · simp only [true_iff]
      exact ⟨hnone, by omega⟩
    · constructor
      · intro h; cases h
      · rintro ⟨-, h⟩; omega

/-- Three additions, one of them a repetition. -/
example : ∃ a, PoolRun a [(.int 5, 0), (.sym "x", 1), (.int 5, 0)] ∧ a.constants.length = 2 := by
  refine ⟨_, PoolRun.add (PoolRun.add (PoolRun.add (PoolRun.start []) rfl) rfl) rfl, rfl⟩

/-! ## C09: decoding is in step with emission -/

/-- Operand layout the assembler writes after each opcode (specification). -/
inductive Shape where
  | none | byte | twoBytes | offset | closure
  deriving DecidableEq

/-- Read off assembler.rs:44-476 emitter by emitter. -/
def Opcode.shape : Opcode → Shape
  | .jump | .jumpIfFalse | .jumpIfTrue => .offset
  | .createClosure => .closure
  | .loadFieldToLocal => .twoBytes
  | .pushConst | .dup | .createArray | .inheritClass | .loadModule | .loadGlobal | .storeGlobal
  | .loadLocal | .storeLocal | .assignLocal | .loadField | .storeField | .assignField
  | .loadUpvalue | .storeUpvalue | .assignUpvalue | .closeUpvalue | .loadMethod | .storeMethod
  | .call | .callSuper | .assertTypeForLocal | .assertTypeOrNullForLocal => .byte
  | _ => .none

/-- `Emitted a is`: `a` is reached from an empty assembler by emitter calls, and `is` is the list of
instructions those calls stand for, with patched jumps carrying their patched operand. -/
inductive Emitted : Asm → List DInstr → Prop where
  | start : Emitted {} []
  | op {a is o} : Emitted a is → o.shape = .none → Emitted (a.op o) (is ++ [.plain o])
  | op1 {a is o} (b) : Emitted a is → o.shape = .byte → Emitted (a.op1 o b) (is ++ [.byte o b])
  | opThenConst {a a' is o c} : Emitted a is → o.shape = .byte →
      a.opThenConst o c = .ok a' → ∀ i a'', (a.op o).makeConstant c = .ok (i, a'') →
      Emitted a' (is ++ [.byte o i])
  | opConst {a a' is o name} : Emitted a is → o.shape = .byte → a.opConst o name = .ok a' →
      ∀ i a'', a.makeConstant (.sym name) = .ok (i, a'') → Emitted a' (is ++ [.byte o i])
  | loadFieldToLocal {a a' is name} (slot) : Emitted a is →
      a.loadFieldToLocal name slot = .ok a' →
      ∀ i a'', a.makeConstant (.sym name) = .ok (i, a'') →
      Emitted a' (is ++ [.twoBytes .loadFieldToLocal i slot])
  | closure {a a' is bc name id ups} : Emitted a is →
      bc.upvalueCount = ups.length → (∀ c ∈ a.constants, c.beq (.fn bc name id) = false) →
      a.closure (.fn bc name id) ups = .ok a' →
      Emitted a' (is ++ [.closure (UInt8.ofNat a.constants.length)
        (ups.map fun u => (if u.description.1 then 1 else 0, UInt8.ofNat u.description.2))])
  | jump {a is o} : Emitted a is → o.shape = .offset → Emitted (a.jump o).1 (is ++ [.offset o 0])
  | jumpBack {a a' is start} : Emitted a is → a.jumpBack start = .ok a' →
      Emitted a' (is ++ [.offset .jump (-(asI16 ((a.data.length : Int) + 1 - start + 2)))])
  | patch {a a' a0 pre o off post p} : Emitted a (pre ++ .offset o off :: post) →
      Emitted a0 pre → a0.data.length + 1 = p →
      a.patchJump p = .ok a' →
      Emitted a' (pre ++ .offset o (asI16 ((a.data.length : Int) - p - 2)) :: post)

/-- The bytes of one instruction. -/
def DInstr.bytes : DInstr → List UInt8
  | .plain o => [o.toByte]
  | .byte o b => [o.toByte, b]
  | .twoBytes o a b => [o.toByte, a, b]
  | .offset o off => o.toByte :: encodeI16 off
  | .closure c caps => Opcode.createClosure.toByte :: c :: caps.flatMap fun p => [p.1, p.2]

/-- Instructions that can be decoded again with the constant pool `cs`. -/
def DInstr.Ok (cs : List Const) : DInstr → Prop
  | .plain o => o.shape = .none
  | .byte o _ => o.shape = .byte
  | .twoBytes o _ _ => o = .loadFieldToLocal
  | .offset o off => o.shape = .offset ∧ -32768 ≤ off ∧ off ≤ 32767
  | .closure c caps => ∃ bc name id, cs[c.toNat]? = some (.fn bc name id) ∧
      bc.upvalueCount = caps.length

theorem DInstr.Ok.mono {cs cs' : List Const} (h : ∀ (j : Nat) c, cs[j]? = some c → cs'[j]? = some c)
    {i : DInstr} (hi : i.Ok cs) : i.Ok cs' := by
  cases i with
  | closure c caps =>
    obtain ⟨bc, name, id, h1, h2⟩ := hi
    exact ⟨bc, name, id, h _ _ h1, h2⟩
  | _ => exact hi

theorem readCaptures_flatMap (pre post : List UInt8) (caps : List (UInt8 × UInt8)) :
    readCaptures (pre ++ (caps.flatMap fun p => [p.1, p.2]) ++ post) pre.length caps.length
      = some (caps, pre.length + 2 * caps.length) := by
  induction caps generalizing pre with
  | nil => simp [readCaptures]
  | cons p caps ih =>
    have := ih (pre ++ [p.1, p.2])
    simp only [List.length_append, List.length_cons, List.length_nil, List.append_assoc] at this
    simp only [List.length_cons, readCaptures, readU8, List.flatMap_cons]
    simp only [List.append_assoc, List.cons_append, List.nil_append, List.getElem?_append_right,
      Nat.le_refl, Nat.sub_self, List.getElem?_cons_zero, Nat.le_add_right, Nat.add_sub_cancel_left,
      List.getElem?_cons_succ] at this ⊢
    rw [this]
    simp
    omega

theorem captureBytes_eq (ups : List UpvalueDescriptor) :
    ups.flatMap Asm.captureBytes =
      (ups.map fun u => ((if u.description.1 then 1 else 0 : UInt8), UInt8.ofNat u.description.2)).flatMap
        fun p => [p.1, p.2] := by
  induction ups with
  | nil => rfl
  | cons u ups ih => simp [Asm.captureBytes, ih]

/-- One instruction is decoded from its bytes wherever they stand, and the position moves by exactly
their number. -/
theorem decodeAt_bytes (cs : List Const) (s u : Nat) (pre post : List UInt8) (i : DInstr)
    (hi : i.Ok cs) :
    decodeAt ⟨pre ++ i.bytes ++ post, s, u, cs⟩ pre.length
      = some (i, pre.length + i.bytes.length) := by
  cases i with
  | plain o =>
    have hread : readInstruction (pre ++ [o.toByte] ++ post) pre.length = some (some o) := by
      simp [readInstruction, opcode_roundtrip]
    simp only [DInstr.Ok] at hi
    simp only [decodeAt, DInstr.bytes, hread, List.length_singleton]
    cases o <;> first | rfl | cases hi
  | byte o b =>
    have hread : readInstruction (pre ++ [o.toByte, b] ++ post) pre.length = some (some o) := by
      simp [readInstruction, opcode_roundtrip]
    have hb : readU8 (pre ++ [o.toByte, b] ++ post) (pre.length + 1) = some b := by
      simp [readU8, List.getElem?_append_right]
    simp only [DInstr.Ok] at hi
    simp only [decodeAt, DInstr.bytes, hread, hb, List.length_cons, List.length_nil]
    cases o <;> first | rfl | cases hi
  | twoBytes o x y =>
    cases hi
    have hread : readInstruction (pre ++ [Opcode.loadFieldToLocal.toByte, x, y] ++ post) pre.length
        = some (some .loadFieldToLocal) := by
      simp [readInstruction, opcode_roundtrip]
    have hx : readU8 (pre ++ [Opcode.loadFieldToLocal.toByte, x, y] ++ post) (pre.length + 1)
        = some x := by simp [readU8, List.getElem?_append_right]
    have hy : readU8 (pre ++ [Opcode.loadFieldToLocal.toByte, x, y] ++ post) (pre.length + 2)
        = some y := by simp [readU8, List.getElem?_append_right]
    simp only [decodeAt, DInstr.bytes, hread, hx, hy]
    rfl
  | offset o off =>
    obtain ⟨h1, h2, h3⟩ := hi
    have hread : readInstruction (pre ++ (o.toByte :: encodeI16 off) ++ post) pre.length
        = some (some o) := by
      simp [readInstruction, opcode_roundtrip]
    have ho : readOffset (pre ++ (o.toByte :: encodeI16 off) ++ post) (pre.length + 1)
        = some off := by
      have := readOffset_encode (pre ++ [o.toByte]) post off h2 h3
      simpa using this
    simp only [decodeAt, DInstr.bytes, hread, ho]
    cases o <;> first | rfl | cases h1
  | closure c caps =>
    obtain ⟨bc, name, id, h1, h2⟩ := hi
    have hread : readInstruction (pre ++ (DInstr.closure c caps).bytes ++ post) pre.length
        = some (some .createClosure) := by
      simp [readInstruction, opcode_roundtrip, DInstr.bytes]
    have hc : readU8 (pre ++ (DInstr.closure c caps).bytes ++ post) (pre.length + 1) = some c := by
      simp [readU8, List.getElem?_append_right, DInstr.bytes]
    have hcaps := readCaptures_flatMap (pre ++ [Opcode.createClosure.toByte, c]) post caps
    simp only [List.length_append, List.length_cons, List.length_nil, List.append_assoc,
      List.cons_append, List.nil_append] at hcaps
    simp only [decodeAt, hread, hc, h1, h2]
    simp only [DInstr.bytes, List.append_assoc, List.cons_append]
    rw [hcaps]
    simp only [Option.map_some, Option.some.injEq, Prod.mk.injEq, true_and, List.length_cons]
    have : (caps.flatMap fun p => [p.1, p.2]).length = 2 * caps.length := by
      clear hcaps h2 h1 hc hread
      induction caps with
      | nil => rfl
      | cons p caps ih => simp only [List.flatMap_cons, List.length_append, ih]; simp; omega
    omega

theorem DInstr.bytes_length_pos (i : DInstr) : 0 < i.bytes.length := by
  cases i <;> simp [DInstr.bytes]

theorem disassemble_bytes (cs : List Const) (s u : Nat) (is : List DInstr)
    (h : ∀ i ∈ is, i.Ok cs) (pre : List UInt8) (fuel : Nat) (hf : is.length ≤ fuel) :
    disassemble ⟨pre ++ is.flatMap DInstr.bytes, s, u, cs⟩ fuel pre.length = some is := by
  induction is generalizing pre fuel with
  | nil => cases fuel <;> simp [disassemble]
  | cons i is ih =>
    cases fuel with
    | zero => simp at hf
    | succ n =>
      have hi := h i (by simp)
      have hd := decodeAt_bytes cs s u pre (is.flatMap DInstr.bytes) i hi
      have hrec := ih (fun j hj => h j (by simp [hj])) (pre ++ i.bytes) n (by simp at hf; omega)
      simp only [List.flatMap_cons, ← List.append_assoc]
      unfold disassemble
      rw [if_pos, hd]
      · simp only []
        rw [List.length_append] at hrec
        rw [hrec]
        rfl
      · have := i.bytes_length_pos
        simp
        omega

theorem opThenConst_ok {a a' : Asm} {o : Opcode} {c : Const} (h : a.opThenConst o c = .ok a') :
    ∃ i a1, (a.op o).makeConstant c = .ok (i, a1) ∧ a' = a1.putU8 i := by
  unfold Asm.opThenConst at h
  split at h
  · cases h
  · rename_i i a1 hm
    cases h
    exact ⟨i, a1, hm, rfl⟩

theorem opConst_ok {a a' : Asm} {o : Opcode} {name : String} (h : a.opConst o name = .ok a') :
    ∃ i a1, a.makeConstant (.sym name) = .ok (i, a1) ∧ a' = a1.op1 o i := by
  unfold Asm.opConst at h
  split at h
  · cases h
  · rename_i i a1 hm
    cases h
    exact ⟨i, a1, hm, rfl⟩

theorem makeConstant_extends {a a' : Asm} {c : Const} {i : UInt8} (h : a.makeConstant c = .ok (i, a')) :
    ∀ (j : Nat) c, a.constants[j]? = some c → a'.constants[j]? = some c := by
  intro j c' hc
  rw [constant_pool_stable h j (List.getElem?_eq_some_iff.mp hc).1]
  exact hc

/-- The emitted bytes are the concatenation of the instructions' bytes. -/
theorem emitted_bytes {a : Asm} {is : List DInstr} (h : Emitted a is) :
    a.data = is.flatMap DInstr.bytes ∧ ∀ i ∈ is, i.Ok a.constants := by
  induction h with
  | start => simp
  | @op a is o _ ho ih =>
    refine ⟨by simp [Asm.op, Asm.putU8, ih.1, DInstr.bytes], fun i hi => ?_⟩
    rcases List.mem_append.mp hi with hi | hi
    · exact ih.2 i hi
    · simp only [List.mem_singleton] at hi; subst hi; exact ho
  | @op1 a is o b _ ho ih =>
    refine ⟨by simp [Asm.op1, Asm.putU8, ih.1, DInstr.bytes], fun i hi => ?_⟩
    rcases List.mem_append.mp hi with hi | hi
    · exact ih.2 i hi
    · simp only [List.mem_singleton] at hi; subst hi; exact ho
  | @opThenConst a a' is o c _ ho hm i a'' hi' ih =>
    obtain ⟨j, a1, hj, rfl⟩ := opThenConst_ok hm
    rw [hj] at hi'
    cases hi'
    have hdata := (makeConstant_ok hj).1
    have hext := makeConstant_extends hj
    refine ⟨by simp [Asm.putU8, hdata, Asm.op, ih.1, DInstr.bytes], fun k hk => ?_⟩
    rcases List.mem_append.mp hk with hk | hk
    · exact (ih.2 k hk).mono hext
    · simp only [List.mem_singleton] at hk; subst hk; exact ho
  | @opConst a a' is o name _ ho hm i a'' hi' ih =>
    obtain ⟨j, a1, hj, rfl⟩ := opConst_ok hm
    rw [hj] at hi'
    cases hi'
    have hdata := (makeConstant_ok hj).1
    have hext := makeConstant_extends hj
    refine ⟨by simp [Asm.op1, Asm.putU8, hdata, ih.1, DInstr.bytes], fun k hk => ?_⟩
    rcases List.mem_append.mp hk with hk | hk
    · exact (ih.2 k hk).mono hext
    · simp only [List.mem_singleton] at hk; subst hk; exact ho
  | @loadFieldToLocal a a' is name slot _ hm i a'' hi' ih =>
    unfold Asm.loadFieldToLocal at hm
    split at hm
    · cases hm
    · rename_i a0 h0
      cases hm
      obtain ⟨j, a1, hj, rfl⟩ := opConst_ok h0
      rw [hj] at hi'
      cases hi'
      have hdata := (makeConstant_ok hj).1
      have hext := makeConstant_extends hj
      refine ⟨by simp [Asm.op1, Asm.putU8, hdata, ih.1, DInstr.bytes], fun k hk => ?_⟩
      rcases List.mem_append.mp hk with hk | hk
      · exact (ih.2 k hk).mono hext
      · simp only [List.mem_singleton] at hk; subst hk; exact rfl
  | @closure a a' is bc name id ups _ hn hnew hm ih =>
    unfold Asm.closure at hm
    split at hm
    · cases hm
    · rename_i a0 h0
      split at hm
      · cases hm
      · cases hm
        obtain ⟨j, a1, hj, rfl⟩ := opThenConst_ok h0
        obtain ⟨hdata, hcase⟩ := makeConstant_ok hj
        have hext := makeConstant_extends hj
        rcases hcase with ⟨-, c', hc', hb⟩ | ⟨-, hcs, hlen, -⟩
        · have := hnew c' (List.mem_of_getElem? hc')
          rw [this] at hb; cases hb
        · have hju : UInt8.ofNat a.constants.length = j := by
            apply UInt8.toNat_inj.mp
            rw [← show (a.op .createClosure).constants = a.constants from rfl, ← hlen]
            simp
          refine ⟨?_, fun k hk => ?_⟩
          · rw [hju]
            simp [Asm.putU8, hdata, Asm.op, ih.1, DInstr.bytes, captureBytes_eq]
          · rcases List.mem_append.mp hk with hk | hk
            · exact (ih.2 k hk).mono hext
            · simp only [List.mem_singleton] at hk; subst hk
              refine ⟨bc, name, id, ?_, by simp [hn]⟩
              simp only [Asm.putU8, hju, hcs, hlen]
              simp
  | @jump a is o _ ho ih =>
    refine ⟨by simp [Asm.jump, Asm.op, Asm.putU8, ih.1, DInstr.bytes], fun i hi => ?_⟩
    rcases List.mem_append.mp hi with hi | hi
    · exact ih.2 i hi
    · simp only [List.mem_singleton] at hi; subst hi; exact ⟨ho, by omega, by omega⟩
  | @jumpBack a a' is start _ hm ih =>
    unfold Asm.jumpBack at hm
    simp only [] at hm
    split at hm
    · cases hm
    · split at hm
      · cases hm
      · rename_i hmin
        cases hm
        have hl : ((a.op Opcode.jump).data.length : Int) = (a.data.length : Int) + 1 := by
          simp [Asm.op, Asm.putU8]
        rw [hl] at hmin ⊢
        refine ⟨by simp [Asm.op, Asm.putU8, ih.1, DInstr.bytes], fun i hi => ?_⟩
        rcases List.mem_append.mp hi with hi | hi
        · exact ih.2 i hi
        · simp only [List.mem_singleton] at hi; subst hi
          have := asI16_range ((a.data.length : Int) + 1 - start + 2)
          exact ⟨rfl, by omega, by omega⟩
  | @patch a a' a0 pre o off post p _ _ hp' hm ih hih =>
    unfold Asm.patchJump at hm
    split at hm
    · cases hm
      have hlen : (pre.flatMap DInstr.bytes).length + 1 = p := by rw [← hih.1]; exact hp'
      refine ⟨?_, fun i hi => ?_⟩
      · simp only [ih.1]
        generalize asI16 _ = x
        simp only [List.flatMap_append, List.flatMap_cons, DInstr.bytes]
        generalize pre.flatMap DInstr.bytes = l at hlen ⊢
        subst hlen
        have e : ∀ y : Int, l ++ ((o.toByte :: encodeI16 y) ++ post.flatMap DInstr.bytes)
            = (l ++ [o.toByte]) ++ (encodeI16 y ++ post.flatMap DInstr.bytes) := by
          intro y; simp
        have e2 : l.length + 1 = (l ++ [o.toByte]).length := by simp
        rw [e, e, e2, List.take_left, ← List.drop_drop, List.drop_left]
        simp only [List.append_assoc]
        rfl
      · have hmem : DInstr.offset o off ∈ pre ++ .offset o off :: post := by simp
        have hoff := ih.2 _ hmem
        rcases List.mem_append.mp hi with hi | hi
        · exact ih.2 i (by simp [hi])
        · rcases List.mem_cons.mp hi with hi | hi
          · subst hi
            have := asI16_range ((a.data.length : Int) - p - 2)
            exact ⟨hoff.1, this.1, this.2⟩
          · exact ih.2 i (by simp [hi])
    · cases hm

/-- C09: for every sequence of emitter calls and patches, disassembling the generated bytecode gives back
exactly the emitted instructions with their operands. -/
theorem disassemble_emitted {a : Asm} {is : List DInstr} (h : Emitted a is) (s u : Nat) :
    disassemble (a.generate s u) a.data.length 0 = some is := by
  obtain ⟨h1, h2⟩ := emitted_bytes h
  have hlen : is.length ≤ a.data.length := by
    rw [h1]
    clear h1 h2 h
    induction is with
    | nil => simp
    | cons i is ih =>
      have := i.bytes_length_pos
      simp only [List.flatMap_cons, List.length_append, List.length_cons]
      omega
  have := disassemble_bytes a.constants s u is h2 [] a.data.length hlen
  simp only [List.nil_append, List.length_nil, ← h1] at this
  exact this

/-- A constant, a jump, an addition, a patch: decoded as emitted. -/
example : ∃ a, Emitted a [.byte .pushConst 0, .offset .jumpIfFalse 1, .plain .add] ∧
    a.data.length = 6 := by
  refine ⟨_, Emitted.patch (pre := [.byte .pushConst 0]) (p := 3)
    (Emitted.op (Emitted.jump (Emitted.opThenConst (c := .int 7) Emitted.start rfl rfl 0 _ rfl) (o := .jumpIfFalse) rfl) (o := .add) rfl)
    (Emitted.opThenConst (o := .pushConst) (c := .int 7) Emitted.start rfl rfl 0 _ rfl) rfl rfl, rfl⟩

end Dice
