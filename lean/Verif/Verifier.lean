import Verif.Within
import Verif.CompileProps
import Verif.AssemblerProps
import Verif.LimitsProps

/-!
# Compiled code is valid bytecode

An independent verifier in the manner of the ones that other machines run before they load code: starting from the first
byte, instruction after instruction decodes, every operand refers to something that exists, and every jump leads to the
beginning of an instruction.  Whatever the compiler accepts passes it, within the limits of the encoding, the functions
inside included; no assumption on the way jumps leave expressions is needed.
-/

namespace Dice

/-- The positions at which instructions begin, reading from the first byte, and the end. -/
inductive Boundary (bc : Bytecode) : Nat → Prop where
  | zero : Boundary bc 0
  | step {p q : Nat} {i : DInstr} (h : Boundary bc p) (d : decodeAt bc p = some (i, q)) : Boundary bc q

/-- The operands of an instruction that ends at `q` refer to what exists. -/
def DInstr.Valid (bc : Bytecode) (q : Nat) : DInstr → Prop
  | .plain _ => True
  | .byte o b =>
    match o with
    | .pushConst => ∃ c, bc.constants[b.toNat]? = some c ∧ c.Pushable
    | .loadModule | .loadGlobal | .loadField | .loadMethod | .storeGlobal | .storeField | .storeMethod | .assignField
    | .inheritClass => ∃ s, bc.constants[b.toNat]? = some (.sym s)
    | .loadLocal | .storeLocal | .assignLocal | .closeUpvalue | .assertTypeForLocal | .assertTypeOrNullForLocal =>
      b.toNat < bc.slotCount
    | .loadUpvalue | .storeUpvalue | .assignUpvalue => b.toNat < bc.upvalueCount
    | .dup | .call | .callSuper | .createArray => True
    | _ => False
  | .twoBytes o a b => o = .loadFieldToLocal ∧ (∃ s, bc.constants[a.toNat]? = some (.sym s)) ∧ b.toNat < bc.slotCount
  | .offset _ off => Boundary bc (offsetPosition q off)
  | .closure k caps => (∃ f name id, bc.constants[k.toNat]? = some (.fn f name id) ∧ f.upvalueCount = caps.length) ∧
      ∀ c ∈ caps, (c.1 = 1 ∧ c.2.toNat < bc.slotCount) ∨ (c.1 = 0 ∧ c.2.toNat < bc.upvalueCount)

/-- The function that an instruction pushes. -/
def DInstr.Pushes (bc : Bytecode) (i : DInstr) (f : Bytecode) : Prop :=
  ∃ k name id, bc.constants[k]? = some (.fn f name id) ∧
    ((∃ b : UInt8, i = .byte .pushConst b ∧ k = b.toNat) ∨ ∃ (b : UInt8) (caps : _), i = .closure b caps ∧ k = b.toNat)

/-- Valid bytecode. -/
inductive Verified : Bytecode → Prop where
  | mk {bc : Bytecode} (inside : ∀ p, Boundary bc p → p ≤ bc.data.length)
      (valid : ∀ p, Boundary bc p → p < bc.data.length → ∃ i q, decodeAt bc p = some (i, q) ∧ i.Valid bc q)
      (fns : ∀ p i q f, Boundary bc p → decodeAt bc p = some (i, q) → i.Pushes bc f → Verified f) : Verified bc

/-! ## Decoding moves forward -/

theorem readCaptures_end {data : List UInt8} {p n q : Nat} {caps : List (UInt8 × UInt8)}
    (h : readCaptures data p n = some (caps, q)) : q = p + 2 * n ∧ caps.length = n := by
  induction n generalizing p caps with
  | zero => cases h; exact ⟨rfl, rfl⟩
  | succ n ih =>
    unfold readCaptures at h
    split at h
    · simp only [Option.map_eq_some_iff, Prod.mk.injEq] at h
      obtain ⟨⟨caps', q'⟩, h1, rfl, rfl⟩ := h
      have := ih h1
      exact ⟨by omega, by simp [this.2]⟩
    · cases h

theorem decodeAt_lt {bc : Bytecode} {p q : Nat} {i : DInstr} (h : decodeAt bc p = some (i, q)) : p < q := by
  unfold decodeAt at h
  split at h
  · split at h
    all_goals first
      | (simp only [Option.map_eq_some_iff, Prod.mk.injEq] at h
         obtain ⟨_, -, -, rfl⟩ := h
         omega)
      | (cases h; omega)
      | (split at h
         · cases h; omega
         · cases h)
      | (split at h
         · cases h
         · split at h
           · cases h
           · simp only [Option.map_eq_some_iff, Prod.mk.injEq] at h
             obtain ⟨⟨caps, q'⟩, h1, -, rfl⟩ := h
             have := (readCaptures_end h1).1
             show p < q'
             omega
           · cases h; omega)
  · cases h

theorem decodeAt_inside {bc : Bytecode} {p : Nat} (h : bc.data.length ≤ p) : decodeAt bc p = none := by
  unfold decodeAt readInstruction
  rw [List.getElem?_eq_none h]
  rfl

/-- No instruction begins inside another one. -/
theorem Boundary.apart {bc : Bytecode} {a b a' : Nat} {i : DInstr} (ha : Boundary bc a) (hb : Boundary bc b)
    (h : decodeAt bc a = some (i, a')) : b ≤ a ∨ a' ≤ b := by
  obtain ⟨n, hn⟩ : ∃ n, n = a + b := ⟨_, rfl⟩
  induction n using Nat.strongRecOn generalizing a b a' i with
  | ind n ih =>
    cases hb with
    | zero => exact .inl (Nat.zero_le _)
    | @step b0 _ j hb0 hd =>
      have hlt := decodeAt_lt hd
      rcases ih (a + b0) (by omega) ha hb0 h rfl with h1 | h1
      · by_cases hba : b ≤ a
        · exact .inl hba
        · rcases ih (b0 + a) (by omega) hb0 ha hd rfl with h2 | h2
          · obtain rfl : a = b0 := by omega
            rw [h] at hd
            cases hd
            exact .inr (Nat.le_refl _)
          · exact .inl h2
      · exact .inr (by omega)

/-! ## Structured code decodes -/

section
variable {bc : Bytecode}

theorem read_op {p : Nat} {o : Opcode} (h : bc.data[p]? = some o.toByte) : readInstruction bc.data p = some (some o) := by
  unfold readInstruction
  rw [h, Option.map_some, opcode_roundtrip]

theorem jump_decodes {p t : Nat} {o : Opcode} (h : JumpAt bc p o t) (ho : o.shape = .offset) :
    ∃ off, decodeAt bc p = some (.offset o off, p + 3) ∧ offsetPosition (p + 3) off = t := by
  obtain ⟨h1, off, h2, h3⟩ := h
  refine ⟨off, ?_, h3⟩
  unfold decodeAt
  rw [read_op h1]
  cases o <;> first | (simp only [h2]; rfl) | cases ho

theorem condJump_shape (b : Bool) : (condJump b).shape = .offset := by cases b <;> rfl

theorem readCaptures_of {data : List UInt8} {p : Nat} (ups : List UpvalueDescriptor)
    (h : ∀ j, j < 2 * ups.length → data[p + j]? = (ups.flatMap Asm.captureBytes)[j]?) :
    readCaptures data p ups.length =
      some (ups.map fun u => ((if u.description.1 then 1 else 0 : UInt8), UInt8.ofNat u.description.2), p + 2 * ups.length) := by
  induction ups generalizing p with
  | nil => rfl
  | cons u ups ih =>
    have h0 := h 0 (by simp)
    have h1 := h 1 (by simp; omega)
    have hr := ih (p := p + 2) fun j hj => by
      have := h (j + 2) (by simp; omega)
      rw [show p + 2 + j = p + (j + 2) by omega, this, List.flatMap_cons]
      exact List.getElem?_append_right (l₁ := Asm.captureBytes u) (by simp [Asm.captureBytes])
    simp only [List.flatMap_cons, Asm.captureBytes, List.cons_append, List.getElem?_cons_zero, Nat.add_zero] at h0
    simp only [List.flatMap_cons, Asm.captureBytes, List.cons_append, List.getElem?_cons_succ, List.getElem?_cons_zero] at h1
    simp only [List.length_cons, readCaptures, readU8, h0, h1, hr, Option.map_some, List.map_cons, Option.some.injEq,
      Prod.mk.injEq, true_and]
    omega

theorem isPlain_shape {o : Opcode} (h : o.isPlain = true) : o.shape = .none := by cases o <;> first | rfl | cases h

theorem encodes_decodes {p q : Nat} {i : Instr} (h : Encodes bc p q i) : ∃ d, decodeAt bc p = some (d, q) ∧
    (i.Within bc.slotCount bc.upvalueCount → d.Valid bc q) ∧ ∀ f, d.Pushes bc f → i.HasFn f := by
  cases i with
  | op o =>
    obtain ⟨ho, h1, rfl⟩ := h
    refine ⟨.plain o, ?_, fun _ => trivial, ?_⟩
    · unfold decodeAt
      rw [read_op h1]
      cases o <;> first | rfl | cases ho
    · rintro f ⟨_, _, _, -, ⟨_, h, -⟩ | ⟨_, _, h, -⟩⟩ <;> cases h
  | byte o b =>
    obtain ⟨ho, h1, h2, rfl⟩ := h
    refine ⟨.byte o b, ?_, fun hw => ?_, ?_⟩
    · unfold decodeAt readU8
      rw [read_op h1, h2]
      cases o <;> first | rfl | cases ho
    · cases o <;> first | exact hw.1 rfl | exact hw.2 rfl | exact trivial | cases ho
    · rintro f ⟨_, _, _, -, ⟨_, h, -⟩ | ⟨_, _, h, -⟩⟩
      · cases h; cases ho
      · cases h
  | const o c =>
    obtain ⟨ho, h1, rfl, k, h2, h3⟩ := h
    refine ⟨.byte o k, ?_, fun hw => ?_, ?_⟩
    · unfold decodeAt readU8
      rw [read_op h1, h2]
      cases o <;> first | rfl | cases ho
    · rw [Instr.within_const] at hw
      split at hw
      · rename_i e
        cases e
        exact ⟨c, h3, hw⟩
      · rename_i e
        obtain ⟨s, rfl⟩ := hw
        cases o <;> first | exact ⟨s, h3⟩ | exact absurd rfl e | cases ho
    · rintro f ⟨_, _, _, hk, ⟨_, h, rfl⟩ | ⟨_, _, h, -⟩⟩
      · cases h
        rw [h3] at hk
        cases hk
        rfl
      · cases h
  | closure code name id captured =>
    obtain ⟨h1, hn, rfl, ⟨k, h2, h3⟩, hc⟩ := h
    refine ⟨.closure k (captured.map fun u => ((if u.description.1 then 1 else 0 : UInt8), UInt8.ofNat u.description.2)),
      ?_, fun hw => ⟨⟨code, name, id, h3, by simp [hn]⟩, ?_⟩, ?_⟩
    · unfold decodeAt readU8
      rw [read_op h1, h2]
      simp only [h3, hn, readCaptures_of captured hc, Option.map_some]
    · intro c hc
      obtain ⟨u, hu, rfl⟩ := List.mem_map.1 hc
      have := Right.ofNat_lt (hw u hu)
      dsimp only
      split at this
      · rename_i e
        exact .inl ⟨by rw [if_pos e], this⟩
      · rename_i e
        exact .inr ⟨by rw [if_neg e], this⟩
    · rintro f ⟨_, _, _, hk, ⟨_, h, -⟩ | ⟨_, _, h, rfl⟩⟩
      · cases h
      · cases h
        rw [h3] at hk
        cases hk
        rfl
  | fieldToLocal field slot =>
    obtain ⟨h1, rfl, ⟨k, h2, h3⟩, h4⟩ := h
    refine ⟨.twoBytes .loadFieldToLocal k slot, ?_, fun hw => ⟨rfl, ⟨field, h3⟩, hw⟩, ?_⟩
    · unfold decodeAt readU8
      rw [read_op h1]
      simp only [h2, h4]
    · rintro f ⟨_, _, _, -, ⟨_, h, -⟩ | ⟨_, _, h, -⟩⟩ <;> cases h

theorem jump_step {p t : Nat} {o : Opcode} (h : JumpAt bc p o t) (ho : o.shape = .offset) (hp : Boundary bc p) :
    Boundary bc (p + 3) := by
  obtain ⟨off, hd, -⟩ := jump_decodes h ho
  exact .step hp hd

/-- Structured code ends at the beginning of an instruction if it begins at one. -/
theorem Layout.boundary {c : Code} {p q tb tc te : Nat} (h : Layout bc p q tb tc te c) (hp : Boundary bc p) :
    Boundary bc q ∧ p ≤ q := by
  induction c generalizing p q tb tc te with
  | nop => obtain rfl : p = q := h; exact ⟨hp, Nat.le_refl _⟩
  | instr i =>
    obtain ⟨d, hd, -⟩ := encodes_decodes h
    exact ⟨.step hp hd, Nat.le_of_lt (decodeAt_lt hd)⟩
  | seq a b iha ihb =>
    obtain ⟨r, ha, hb⟩ := h
    have h1 := iha ha hp
    have h2 := ihb hb h1.1
    exact ⟨h2.1, Nat.le_trans h1.2 h2.2⟩
  | skipIf b c ih =>
    obtain ⟨hj, hc⟩ := h
    have := ih hc (jump_step hj (condJump_shape b) hp)
    exact ⟨this.1, by omega⟩
  | branch t e iht ihe =>
    obtain ⟨r, hj, ht, hj2, he⟩ := h
    have h1 := iht ht (jump_step hj rfl hp)
    have h2 := ihe he (jump_step hj2 rfl h1.1)
    exact ⟨h2.1, by omega⟩
  | loop c ih =>
    obtain ⟨r, hc, hj, rfl⟩ := h
    have h1 := ih hc hp
    exact ⟨jump_step hj rfl h1.1, by omega⟩
  | breakIf b =>
    obtain ⟨hj, rfl⟩ := h
    exact ⟨jump_step hj (condJump_shape b) hp, by omega⟩
  | brk =>
    obtain ⟨hj, rfl⟩ := h
    exact ⟨jump_step hj rfl hp, by omega⟩
  | cont =>
    obtain ⟨hj, rfl⟩ := h
    exact ⟨jump_step hj rfl hp, by omega⟩
  | chain c ih => exact ih h hp
  | exitIf b =>
    obtain ⟨hj, rfl⟩ := h
    exact ⟨jump_step hj (condJump_shape b) hp, by omega⟩

/-- What is shown of every instruction in a part of the bytecode. -/
def CheckedAt (bc : Bytecode) (c : Code) (b : Nat) : Prop :=
  ∃ i q, decodeAt bc b = some (i, q) ∧ i.Valid bc q ∧ ∀ f, i.Pushes bc f → c.HasFn f

theorem CheckedAt.imp {c c' : Code} {b : Nat} (h : ∀ f, c.HasFn f → c'.HasFn f) : CheckedAt bc c b → CheckedAt bc c' b := by
  rintro ⟨i, q, h1, h2, h3⟩
  exact ⟨i, q, h1, h2, fun f hf => h f (h3 f hf)⟩

theorem jump_checked {p b t : Nat} {o : Opcode} {c : Code} (h : JumpAt bc p o t) (ho : o.shape = .offset)
    (hp : Boundary bc p) (ht : Boundary bc t) (hb : Boundary bc b) (h1 : p ≤ b) (h2 : b < p + 3) : CheckedAt bc c b := by
  obtain ⟨off, hd, e⟩ := jump_decodes h ho
  obtain rfl : b = p := by
    have := hp.apart hb hd
    omega
  refine ⟨_, _, hd, ?_, ?_⟩
  · show Boundary bc (offsetPosition _ _)
    rw [e]
    exact ht
  · rintro f ⟨_, _, _, -, ⟨_, h, -⟩ | ⟨_, _, h, -⟩⟩ <;> cases h

/-- Every instruction in structured code is valid. -/
theorem Layout.checked {c : Code} {p q tb tc te : Nat} (h : Layout bc p q tb tc te c)
    (hw : c.All (Instr.Within bc.slotCount bc.upvalueCount)) (hp : Boundary bc p) (htb : Boundary bc tb)
    (htc : Boundary bc tc) (hte : Boundary bc te) {b : Nat} (hb : Boundary bc b) (h1 : p ≤ b) (h2 : b < q) :
    CheckedAt bc c b := by
  induction c generalizing p q tb tc te with
  | nop => obtain rfl : p = q := h; omega
  | instr i =>
    obtain ⟨d, hd, hv, hf⟩ := encodes_decodes h
    obtain rfl : b = p := by
      have := hp.apart hb hd
      omega
    exact ⟨d, q, hd, hv hw, hf⟩
  | seq x y ihx ihy =>
    obtain ⟨r, hx, hy⟩ := h
    have hr := hx.boundary hp
    by_cases hbr : b < r
    · exact (ihx hx hw.1 hp htb htc hte h1 hbr).imp fun f hf => .inl hf
    · exact (ihy hy hw.2 hr.1 htb htc hte (by omega) h2).imp fun f hf => .inr hf
  | skipIf k c ih =>
    obtain ⟨hj, hc⟩ := h
    have hp3 := jump_step hj (condJump_shape k) hp
    by_cases hb3 : b < p + 3
    · exact jump_checked hj (condJump_shape k) hp (hc.boundary hp3).1 hb h1 hb3
    · exact (ih hc hw hp3 htb htc hte (by omega) h2).imp fun f hf => hf
  | branch t e iht ihe =>
    obtain ⟨r, hj, ht, hj2, he⟩ := h
    have hp3 := jump_step hj rfl hp
    have hr := ht.boundary hp3
    have hr3 := jump_step hj2 rfl hr.1
    by_cases hb3 : b < p + 3
    · exact jump_checked hj rfl hp hr3 hb h1 hb3
    by_cases hbr : b < r
    · exact (iht ht hw.1 hp3 htb htc hte (by omega) hbr).imp fun f hf => .inl hf
    by_cases hbr3 : b < r + 3
    · exact jump_checked hj2 rfl hr.1 (he.boundary hr3).1 hb (by omega) hbr3
    · exact (ihe he hw.2 hr3 htb htc hte (by omega) h2).imp fun f hf => .inr hf
  | loop c ih =>
    obtain ⟨r, hc, hj, rfl⟩ := h
    have hr := hc.boundary hp
    by_cases hbr : b < r
    · exact (ih hc hw hp (jump_step hj rfl hr.1) hp hte h1 hbr).imp fun f hf => hf
    · exact jump_checked hj rfl hr.1 hp hb (by omega) h2
  | breakIf k =>
    obtain ⟨hj, rfl⟩ := h
    exact jump_checked hj (condJump_shape k) hp htb hb h1 h2
  | brk =>
    obtain ⟨hj, rfl⟩ := h
    exact jump_checked hj rfl hp htb hb h1 h2
  | cont =>
    obtain ⟨hj, rfl⟩ := h
    exact jump_checked hj rfl hp htc hb h1 h2
  | chain c ih => exact (ih h hw hp htb htc (Layout.boundary (c := c) h hp).1 h1 h2).imp fun f hf => hf
  | exitIf k =>
    obtain ⟨hj, rfl⟩ := h
    exact jump_checked hj (condJump_shape k) hp hte hb h1 h2

end

/-! ## Whole functions and programs -/

theorem RightCode.verified {bc : Bytecode} (h : RightCode bc) (hf : Fits bc) : Verified bc := by
  induction h with
  | @mk bc c layout within fns ih =>
    have hl := layout hf
    have hend := (hl.boundary .zero).1
    have inside : ∀ p, Boundary bc p → p ≤ bc.data.length := by
      intro p hp
      cases hp with
      | zero => exact Nat.zero_le _
      | @step p' _ i hp' hd =>
        rcases hp'.apart hend hd with h | h
        · rw [decodeAt_inside h] at hd; cases hd
        · exact h
    have checked : ∀ p, Boundary bc p → p < bc.data.length → CheckedAt bc c p := fun p hp hlt =>
      hl.checked within .zero .zero .zero .zero hp (Nat.zero_le _) hlt
    refine .mk inside (fun p hp hlt => ?_) fun p i q f hp hd hpu => ?_
    · obtain ⟨i, q, h1, h2, -⟩ := checked p hp hlt
      exact ⟨i, q, h1, h2⟩
    · have hlt : p < bc.data.length := by
        rcases Nat.lt_or_ge p bc.data.length with h | h
        · exact h
        · rw [decodeAt_inside h] at hd; cases hd
      obtain ⟨i', q', h1, -, h3⟩ := checked p hp hlt
      rw [hd] at h1
      cases h1
      refine ih f (h3 f hpu) ?_
      obtain ⟨k, name, id, hk, -⟩ := hpu
      cases hf with
      | mk _ _ _ hfns => exact hfns f name id (List.mem_of_getElem? hk)

theorem ProgGen.right {kind : CompilerKind} {root : Expr} {fn : Ctx} {c : Code} (h : ProgGen kind root fn c) :
    Right fn.scopes.slotCount fn.upvalues.length c := by
  have hinit : ∀ kind : CompilerKind, StackInv [{ kind }] := fun kind =>
    ⟨List.Pairwise.nil, scopeInv_new _, by simp, trivial⟩
  cases h with
  | module h0 h hv =>
    have i1 := (sizeRel.addLocal h0).inv (hinit _)
    have i2 := (h.rel sizeRel).inv i1
    exact .cons (h.right _ _ i1 ⟨Nat.le_refl _, Nat.le_refl _⟩ nofun) (.cons .op (.cons (.loc (lookup_slot_lt i2 hv)) .nil))
  | other hk h => exact h.right _ _ (hinit _) ⟨Nat.le_refl _, Nat.le_refl _⟩ nofun

/-- **C65.** Whatever the compiler accepts is valid bytecode, within the limits of the encoding. -/
theorem compiled_verified {kind : CompilerKind} {root : Expr} {bc : Bytecode} (h : compile kind root = .ok bc)
    (hs : Sized bc) : Verified bc := by
  obtain ⟨fn, c, hp, hc⟩ := compile_gen h
  exact (hc.right hp.right).verified (compiled_fits h hs)

/-- **C65**, printing: the disassembler reaches the end of valid bytecode without a panic. -/
theorem Verified.disassembles {bc : Bytecode} (h : Verified bc) : ∃ is, disassemble bc bc.data.length 0 = some is := by
  cases h with
  | mk inside valid _ =>
    have key : ∀ n p, Boundary bc p → bc.data.length - p ≤ n → ∃ is, disassemble bc n p = some is := by
      intro n
      induction n with
      | zero =>
        intro p _ hn
        unfold disassemble
        rw [if_neg (by omega)]
        exact ⟨[], rfl⟩
      | succ n ih =>
        intro p hp hn
        unfold disassemble
        by_cases hlt : p < bc.data.length
        · obtain ⟨i, q, hd, -⟩ := valid p hp hlt
          have := decodeAt_lt hd
          obtain ⟨is, e⟩ := ih q (.step hp hd) (by omega)
          rw [if_pos hlt, hd]
          exact ⟨i :: is, by simp only [e, Option.map_some]⟩
        · rw [if_neg hlt]
          exact ⟨[], rfl⟩
    exact key _ 0 .zero (Nat.sub_le _ _)

/-- **C65**, positions: in valid bytecode a jump never leads into an instruction. -/
theorem Verified.jump_apart {bc : Bytecode} (h : Verified bc) {p q : Nat} {o : Opcode} {off : Int} (hp : Boundary bc p)
    (hd : decodeAt bc p = some (.offset o off, q)) {b b' : Nat} {i : DInstr} (hb : Boundary bc b)
    (hi : decodeAt bc b = some (i, b')) : offsetPosition q off ≤ b ∨ b' ≤ offsetPosition q off := by
  cases h with
  | mk _ valid _ =>
    have hlt : p < bc.data.length := by
      rcases Nat.lt_or_ge p bc.data.length with h | h
      · exact h
      · rw [decodeAt_inside h] at hd; cases hd
    obtain ⟨i', q', h1, h2⟩ := valid p hp hlt
    rw [hd] at h1
    cases h1
    exact hb.apart h2 hi

/-! ## The hypotheses can be met, and the verifier rejects wrong code -/

theorem Fits.sized {bc : Bytecode} (h : Fits bc) : Sized bc := by
  induction h with
  | mk length slots _ _ ih => exact .mk length slots ih

/-- The script is accepted and within the limits, down to functions nested three deep. -/
def acceptedSmall (e : Expr) : Bool :=
  match compile .script e with
  | .ok bc => fitsUpTo 3 bc
  | .error _ => false

theorem acceptedSmall_sound {e : Expr} (h : acceptedSmall e = true) : ∃ bc, compile .script e = .ok bc ∧ Sized bc := by
  unfold acceptedSmall at h
  split at h
  · rename_i bc hc
    exact ⟨bc, hc, (fitsUpTo_sound h).sized⟩
  · cases h

/-- A loop left in the middle of a sum, a closure that assigns a captured variable, and a chain with `?`:
`let mut n = 0  loop { 1 + { break } }  let f = |x| { n = n + 1  x?.y.z }  f(null)`. -/
example : ∃ bc, compile .script (.block
    [.varDecl (.singular "n") true (.int 0) none,
     .loop (.block [.binary .add (.int 1) (.block [.break_] none)] none),
     .varDecl (.singular "f") false (.anonFn [⟨"x", none⟩] none (.block
       [.assign .assign (.ident "n") (.binary .add (.ident "n") (.int 1))]
       (some (.field (.field (.nullProp (.ident "x")) "y") "z")))) none]
    (some (.call (.ident "f") [.null]))) = .ok bc ∧ Sized bc := acceptedSmall_sound (by decide +kernel)

/-- A jump into the middle of an instruction. -/
example : ¬ Verified ⟨[Opcode.jump.toByte, 255, 254], 0, 0, []⟩ := by
  intro h
  cases h with
  | mk _ valid _ =>
    obtain ⟨i, q, h1, h2⟩ := valid 0 .zero (by decide)
    have e : decodeAt ⟨[Opcode.jump.toByte, 255, 254], 0, 0, []⟩ 0 = some (.offset .jump (-2), 3) := by decide +kernel
    rw [e] at h1
    cases h1
    have := Boundary.apart .zero h2 e
    revert this
    decide +kernel

/-- A variable that does not exist. -/
example : ¬ Verified ⟨[Opcode.loadLocal.toByte, 1], 1, 0, []⟩ := by
  intro h
  cases h with
  | mk _ valid _ =>
    obtain ⟨i, q, h1, h2⟩ := valid 0 .zero (by decide)
    have e : decodeAt ⟨[Opcode.loadLocal.toByte, 1], 1, 0, []⟩ 0 = some (.byte .loadLocal 1, 2) := by decide +kernel
    rw [e] at h1
    cases h1
    exact absurd h2 (by show ¬ (1 : Nat) < 1; decide)

end Dice
