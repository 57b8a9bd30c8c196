import Verif.Balance

/-!
# Instructions follow the stack discipline
-/

namespace Dice

/-- The calls of the machine take their operands and leave their result. -/
structure GoodCalls (k : Calls) : Prop where
  callFn : ∀ (argc : Nat) (m : VM) (S : Nat → Prop), GoodVM m → (∀ j, S j → j + argc + 1 < m.ptr) →
    Shifts m (k.callFn argc) S (fun _ p => p + argc = m.ptr)
  callCtor : ∀ (argc c : Nat) (obj : Value) (m : VM) (S : Nat → Prop), GoodVM m → GoodValue obj →
    (∀ j, S j → j + argc + 1 < m.ptr) →
    Shifts m (k.callCtor argc c obj) S (fun v p => p + argc + 1 = m.ptr ∧ GoodValue v)
  runModule : ∀ (bc : Bytecode) (e : Value) (m : VM) (S : Nat → Prop), GoodVM m → GoodCode bc →
    0 < bc.slotCount → GoodValue e →
    (∀ j, S j → j < m.ptr) → Shifts m (k.runModule bc e) S (fun v p => p = m.ptr ∧ GoodValue v)

section
variable {m : VM} {S : Nat → Prop}

theorem callBinaryOp_moves (g : GoodVM m) (w : World) {cf : Nat → V Unit}
    (hc : ∀ (argc : Nat) (m : VM), GoodVM m → (∀ j, S j → j + argc + 1 < m.ptr) →
      Shifts m (cf argc) S (fun _ p => p + argc = m.ptr)) (name : String) {rhs : Value} (hr : GoodValue rhs)
    (hS : ∀ j, S j → j + 1 < m.ptr) : Shifts m (callBinaryOp w cf name rhs) S (fun _ p => p = m.ptr) := by
  unfold callBinaryOp
  refine (pop_moves g hS).bind fun lhs m1 g1 h1 => ?_
  refine (getField_moves g1 w name h1.2).bind fun method m2 g2 h2 => ?_
  split
  · refine Shifts.bind (P := fun v p => p = m2.ptr ∧ GoodValue v) (.read g2 (operatorFn_state name m2) (fun a ha => ?_)) ?_
    · unfold operatorFn at ha
      split at ha
      · rename_i v hv
        cases ha
        exact ⟨rfl, g2.globals.get hv⟩
      · cases ha
    · intro fv m3 g3 h3
      refine (push_moves g3 h3.2 (fun j hj => by have := hS j hj; omega)).bind fun _ m4 g4 h4 => ?_
      refine (push_moves g4 h1.2 (fun j hj => by have := hS j hj; omega)).bind fun _ m5 g5 h5 => ?_
      refine (push_moves g5 hr (fun j hj => by have := hS j hj; omega)).bind fun _ m6 g6 h6 => ?_
      exact (hc 2 m6 g6 (fun j hj => by have := hS j hj; omega)).weaken fun _ p h => by omega
  · refine (push_moves g2 h2.2 (fun j hj => by have := hS j hj; omega)).bind fun _ m4 g4 h4 => ?_
    refine (push_moves g4 hr (fun j hj => by have := hS j hj; omega)).bind fun _ m5 g5 h5 => ?_
    exact (hc 1 m5 g5 (fun j hj => by have := hS j hj; omega)).weaken fun _ p h => by omega

theorem i64_read {α : Type} {x : V Int} {f : Int → V α} {P : α → Nat → Prop} (g : GoodVM m) (hx : (x m).2 = m)
    (hf : ∀ a m', GoodVM m' → m'.ptr = m.ptr → Shifts m' (f a) S P) : Shifts m (x >>= f) S P :=
  Shifts.bind (P := fun _ p => p = m.ptr) (.read g hx (fun _ _ => rfl)) hf

theorem binValue_good {w : World} {o : Opcode} {l r v : Value} (h : binDecide w o l r = .value v) : GoodValue v := by
  have : ∃ b, v = .bool b ∨ ∃ f, v = .float f := by
    unfold binDecide at h
    repeat' split at h
    all_goals first
      | (cases h; done)
      | (cases h; exact ⟨_, .inl rfl⟩)
      | (cases h; exact ⟨true, .inr ⟨_, rfl⟩⟩)
  obtain ⟨b, rfl | ⟨f, rfl⟩⟩ := this <;> trivial

theorem binaryOp_moves (g : GoodVM m) (w : World) {cf : Nat → V Unit}
    (hc : ∀ (argc : Nat) (m : VM), GoodVM m → (∀ j, S j → j + argc + 1 < m.ptr) →
      Shifts m (cf argc) S (fun _ p => p + argc = m.ptr)) (o : Opcode)
    (hS : ∀ j, S j → j + 2 < m.ptr) : Shifts m (binaryOp w cf o) S (fun _ p => p + 1 = m.ptr) := by
  unfold binaryOp
  refine (pop_moves g (fun j hj => by have := hS j hj; omega)).bind fun rhs m1 g1 h1 => ?_
  refine (peek_moves g1 0).bind fun lhs m2 g2 h2 => ?_
  have hS2 : ∀ j, S j → j + 1 < m2.ptr := fun j hj => by have := hS j hj; omega
  have num : ∀ (x : Int) (m' : VM), GoodVM m' → m'.ptr = m2.ptr →
      Shifts m' (poke 0 (.int x)) S (fun _ p => p + 1 = m.ptr) := fun x m' g' h' =>
    (poke_moves g' 0 (v := .int x) trivial (fun j hj => by have := hS2 j hj; omega)).weaken fun _ p h => by omega
  cases hb : binDecide w o lhs rhs with
  | value v =>
    exact (poke_moves g2 0 (binValue_good hb) (fun j hj => by have := hS2 j hj; omega)).weaken fun _ p h => by omega
  | int x => exact i64_read g2 (i64Result_state w x m2) (fun a m' g' h' => num a m' g' h')
  | quotient l r => exact i64_read g2 (i64Div_state l r m2) (fun a m' g' h' => num a m' g' h')
  | remainder l r => exact i64_read g2 (i64Rem_state l r m2) (fun a m' g' h' => num a m' g' h')
  | divideByZero => exact .err g2
  | call name => exact (callBinaryOp_moves g2 w hc name h1.2 hS2).weaken fun _ p h => by omega

theorem loadModule_moves (g : GoodVM m) {w : World} (hw : GoodWorld w) {k : Calls} (hk : GoodCalls k) (name : String)
    (hS : ∀ j, S j → j < m.ptr) : Shifts m (loadModule w k name) S (fun _ p => p = m.ptr + 1) := by
  unfold loadModule
  have key : Shifts m (moduleValue w k name) S (fun v p => p = m.ptr ∧ GoodValue v) := by
    cases hm : m.modules.get name with
    | some v =>
      exact .read g (by simp only [moduleValue, hm]) (fun a ha => by
        simp only [moduleValue, hm] at ha
        cases ha
        exact ⟨rfl, g.modules.get hm⟩)
    | none =>
      have g1 : GoodVM { m with heap := (m.heap.newObject w.moduleClass).2,
                                modules := m.modules.insert name (m.heap.newObject w.moduleClass).1 } :=
        { g with
          heap := (newObject_good g.heap _).1
          modules := g.modules.insert name trivial }
      cases hl : w.loader name with
      | error e =>
        exact ⟨by simp only [moduleValue, hm, hl]; exact g1,
          fun a m' h => by simp only [moduleValue, hm, hl] at h; cases h⟩
      | ok bc =>
        have := hk.runModule bc (m.heap.newObject w.moduleClass).1 _ S g1 (hw.loader name bc hl).1
          (hw.loader name bc hl).2 trivial hS
        refine ⟨by simp only [moduleValue, hm, hl]; exact this.good, fun a m' h => ?_⟩
        simp only [moduleValue, hm, hl] at h
        exact this.ok a m' h
  refine key.bind fun v m1 g1 h1 => ?_
  exact (push_moves g1 h1.2 (fun j hj => by have := hS j hj; omega)).weaken fun _ p h => by omega

theorem loadIndex_moves (g : GoodVM m) (w : World) (hS : ∀ j, S j → j + 2 < m.ptr) :
    Shifts m (loadIndex w) S (fun _ p => p + 1 = m.ptr) := by
  unfold loadIndex
  refine (pop_moves g (fun j hj => by have := hS j hj; omega)).bind fun i m1 g1 h1 => ?_
  refine (peek_moves g1 0).bind fun t m2 g2 h2 => ?_
  refine (getIndex_moves g2 w i h2.2.1).bind fun r m3 g3 h3 => ?_
  exact (poke_moves g3 0 h3.2 (fun j hj => by have := hS j hj; omega)).weaken fun _ p h => by omega

theorem setIndex_moves (g : GoodVM m) (r : Value → Value) (hr : ∀ v, GoodValue v → GoodValue (r v))
    (hS : ∀ j, S j → j + 3 < m.ptr) : Shifts m (setIndex r) S (fun _ p => p + 2 = m.ptr) := by
  unfold setIndex
  refine (pop_moves g (fun j hj => by have := hS j hj; omega)).bind fun v m1 g1 h1 => ?_
  refine (pop_moves g1 (fun j hj => by have := hS j hj; omega)).bind fun i m2 g2 h2 => ?_
  refine (peek_moves g2 0).bind fun t m3 g3 h3 => ?_
  refine (putIndex_moves g3 t i h1.2).bind fun _ m4 g4 h4 => ?_
  exact (poke_moves g4 0 (hr v h1.2) (fun j hj => by have := hS j hj; omega)).weaken fun _ p h => by omega

theorem captures_moves (g : GoodVM m) {f : Frame} (ups : Option (List Nat)) {bc : Bytecode}
    (captured : List UpvalueDescriptor) (pos : Nat)
    (hb : ∀ j, j < 2 * captured.length → bc.data[pos + j]? = (captured.flatMap Asm.captureBytes)[j]?)
    (hS : ∀ d ∈ captured, d.description.1 = true → ∀ j, S j → j ≠ f.start + d.description.2 % 256) :
    Shifts m (captures bc f ups captured.length pos) S (fun _ p => p = m.ptr) := by
  induction captured generalizing pos m with
  | nil => exact .pure g rfl
  | cons d ds ih =>
    have e0 : bc.data[pos]? = some (if d.description.1 then 1 else 0) := by
      have := hb 0 (by simp)
      simpa [Asm.captureBytes] using this
    have e1 : bc.data[pos + 1]? = some (UInt8.ofNat d.description.2) := by
      have := hb 1 (by simp; omega)
      simpa [Asm.captureBytes] using this
    show Shifts m (captures bc f ups (ds.length + 1) pos) S _
    unfold captures
    have one : Shifts m (captureOne bc f ups pos) S (fun _ p => p = m.ptr) := by
      unfold captureOne
      rw [operand_at e0, operand_at e1]
      simp only [pure_bind]
      by_cases hd : d.description.1 = true
      · rw [if_pos (by rw [if_pos hd]; rfl)]
        have h256 : (UInt8.ofNat d.description.2).toNat = d.description.2 % 256 := by simp
        rw [h256]
        exact captureLocal_moves g (hS d (by simp) hd)
      · rw [if_neg (by rw [if_neg hd]; decide)]
        exact upvalueAt_moves g ups _
    refine one.bind fun a m1 g1 h1 => ?_
    refine (ih g1 (pos + 2) (fun j hj => ?_) (fun e he => hS e (by simp [he]))).bind fun rest m2 g2 h2 => ?_
    · have := hb (j + 2) (by simp; omega)
      rw [show pos + 2 + j = pos + (j + 2) by omega, this]
      simp [Asm.captureBytes]
    · exact .pure g2 (by omega)

end

/-! ## The positions a piece of code leaves alone -/

/-- The instruction neither stores to nor captures the variables in `P`. -/
def Instr.Spares (P : Nat → Prop) : Instr → Prop
  | .byte .storeLocal b | .byte .assignLocal b | .byte .closeUpvalue b => ¬ P b.toNat
  | .fieldToLocal _ b => ¬ P b.toNat
  | .closure _ _ _ captured => ∀ d ∈ captured, d.description.1 = true → ¬ P (d.description.2 % 256)
  | _ => True

/-- The code neither stores to nor captures the variables in `P`. -/
def Code.Spares (P : Nat → Prop) : Code → Prop
  | .instr i => i.Spares P
  | .seq a b => a.Spares P ∧ b.Spares P
  | .skipIf _ c => c.Spares P
  | .branch t e => t.Spares P ∧ e.Spares P
  | .loop c => c.Spares P
  | .chain c => c.Spares P
  | _ => True

theorem Instr.spares_none (i : Instr) : i.Spares fun _ => False := by
  unfold Instr.Spares
  split <;> simp

theorem Code.spares_none (c : Code) : c.Spares fun _ => False := by
  induction c with
  | instr i => exact i.spares_none
  | seq _ _ h1 h2 => exact ⟨h1, h2⟩
  | branch _ _ h1 h2 => exact ⟨h1, h2⟩
  | skipIf _ _ h => exact h
  | loop _ h => exact h
  | chain _ h => exact h
  | _ => trivial

/-- Everything below the frame, the lowest `l` values above it, and the variables in `P`. -/
def FrameKeep (f : Frame) (P : Nat → Prop) (l : Nat) (j : Nat) : Prop :=
  j < f.start ∨ (f.stop ≤ j ∧ j < f.stop + l) ∨ ∃ s, P s ∧ j = f.start + s ∧ j < f.stop

theorem FrameKeep.lt {f : Frame} {P : Nat → Prop} {l j : Nat} (hf : f.start ≤ f.stop) (h : FrameKeep f P l j) : j < f.stop + l := by
  rcases h with h | h | ⟨s, -, h⟩ <;> omega

theorem FrameKeep.out {f : Frame} {P : Nat → Prop} {l j i : Nat} (h : FrameKeep f P l j) (hi : ¬ P i) (hf : f.start + i < f.stop) :
    j ≠ f.start + i := by
  rcases h with h | h | ⟨s, hs, h⟩
  · omega
  · omega
  · rintro rfl
    have : i = s := by omega
    exact hi (this ▸ hs)

theorem constToValue_good {c : Const} (h : ∀ b, Instr.HasFn (.const o c) b → GoodCode b) : GoodValue c.toValue := by
  cases c with
  | fn b n i => exact h b rfl
  | _ => trivial

theorem symbolOperand_const (c : Const) : symbolOperand ⟨[0], 0, 0, [c]⟩ 0 = asSymbol c.toValue := rfl

theorem operand_byte (b : UInt8) : operand ⟨[b], 0, 0, []⟩ 0 = pure b.toNat := rfl

theorem normal_end {m : VM} {S : Nat → Prop} (g : GoodVM m) {p : Nat} (h : m.ptr = p) (pos : Nat) :
    Shifts m (pure (Next.goto pos) : V Next) S (fun nx q => nx.sig = .normal ∧ q = p) := .pure g ⟨rfl, h⟩

/-- Instructions with an effect have it. -/
theorem step_moves {w : World} (hw : GoodWorld w) {k : Calls} (hk : GoodCalls k) {m : VM} (g : GoodVM m) {f : Frame}
    {ups : Option (List Nat)} {i : Instr} {P : Nat → Prop} {N l p a r : Nat} (hp : m.ptr = f.stop + p) (hf : f.start + N ≤ f.stop)
    (he : i.effect = some (a, r)) (hl : l + a ≤ p) (hc : i.CapturesBelow N) (hfn : ∀ b, i.HasFn b → GoodCode b)
    (hsp : i.Spares P) : Shifts m (step w k i.operands f ups i.opcode 0) (FrameKeep f P l)
      (fun nx q => nx.sig = .normal ∧ q = f.stop + (p - a + r)) := by
  have hS : ∀ j, FrameKeep f P l j → j < f.stop + l := fun j hj => hj.lt (by omega)
  have cf : ∀ (argc : Nat) (m : VM), GoodVM m → (∀ j, FrameKeep f P l j → j + argc + 1 < m.ptr) →
      Shifts m (k.callFn argc) (FrameKeep f P l) (fun _ p => p + argc = m.ptr) :=
    fun argc m g h => hk.callFn argc m _ g h
  cases i with
  | op o =>
    have pushed : ∀ v, GoodValue v → Shifts m (do push v; pure (Next.goto 0)) (FrameKeep f P l)
        (fun nx q => nx.sig = .normal ∧ q = f.stop + (p + 1)) := fun v hv =>
      (push_moves g hv (fun j hj => by have := hS j hj; omega)).bind fun _ m1 g1 h1 => normal_end g1 (by omega) _
    have bin : ∀ o, l + 2 ≤ p → Shifts m (do binaryOp w k.callFn o; pure (Next.goto 0)) (FrameKeep f P l)
        (fun nx q => nx.sig = .normal ∧ q = f.stop + (p - 2 + 1)) := fun o hl =>
      (binaryOp_moves g w cf o (fun j hj => by have := hS j hj; omega)).bind
        fun _ m1 g1 h1 => normal_end g1 (by omega) _
    cases o <;> simp only [Instr.effect] at he <;> cases he <;> simp only [Instr.opcode, step]
    case op.pushNull.refl => exact pushed _ trivial
    case op.pushUnit.refl => exact pushed _ trivial
    case op.pushFalse.refl => exact pushed _ trivial
    case op.pushTrue.refl => exact pushed _ trivial
    case op.pushI0.refl => exact pushed _ trivial
    case op.pushI1.refl => exact pushed _ trivial
    case op.pushF0.refl => exact pushed _ trivial
    case op.pushF1.refl => exact pushed _ trivial
    case op.pop.refl =>
      exact (pop_moves g (fun j hj => by have := hS j hj; omega)).bind fun _ m1 g1 h1 => normal_end g1 (by omega) _
    case op.swap.refl =>
      exact (swap_moves g (fun j hj => by have := hS j hj; omega)).bind fun _ m1 g1 h1 => normal_end g1 (by omega) _
    case op.createObject.refl =>
      have hn := newObject_good g.heap w.anyClass
      refine (onHeap_moves (P := fun v q => q = m.ptr ∧ GoodValue v) g hn.1 ⟨rfl, hn.2⟩).bind
        fun v m1 g1 h1 => ?_
      exact (push_moves g1 h1.2 (fun j hj => by have := hS j hj; omega)).bind fun _ m2 g2 h2 => normal_end g2 (by omega) _
    case op.negate.refl =>
      refine (peek_moves g 0).bind fun v m1 g1 h1 => ?_
      refine Shifts.bind (P := fun v q => q = m1.ptr ∧ GoodValue v) (.read g1 (negate_state w v m1) fun r hr => ?_) ?_
      · refine ⟨rfl, ?_⟩
        cases v <;> simp only [negate] at hr <;> try (cases hr; done)
        · obtain ⟨x, m2, -, h2⟩ := bind_ok_inv (m' := (do let r ← i64Result w _; pure (Value.int r) : V Value) m1 |>.2)
            (b := r) (Prod.ext hr rfl)
          cases h2
          trivial
        · cases hr; trivial
      · intro r m2 g2 h2
        exact (poke_moves g2 0 h2.2 (fun j hj => by have := hS j hj; omega)).bind fun _ m3 g3 h3 =>
          normal_end g3 (by omega) _
    case op.not.refl =>
      refine (peek_moves g 0).bind fun v m1 g1 h1 => ?_
      refine Shifts.bind (P := fun v q => q = m1.ptr ∧ GoodValue v) (.read g1 (notValue_state v m1) fun r hr => ?_) ?_
      · refine ⟨rfl, ?_⟩
        cases v <;> simp only [notValue] at hr <;> cases hr
        trivial
      · intro r m2 g2 h2
        exact (poke_moves g2 0 h2.2 (fun j hj => by have := hS j hj; omega)).bind fun _ m3 g3 h3 =>
          normal_end g3 (by omega) _
    case op.«is».refl =>
      refine (pop_moves g (fun j hj => by have := hS j hj; omega)).bind fun c m1 g1 h1 => ?_
      refine (asClass_moves g1 c).bind fun cls m2 g2 h2 => ?_
      refine (peek_moves g2 0).bind fun v m3 g3 h3 => ?_
      refine (testType_moves g3 w v cls).bind fun r m4 g4 h4 => ?_
      exact (poke_moves g4 0 (v := .bool r) trivial (fun j hj => by have := hS j hj; omega)).bind fun _ m5 g5 h5 =>
        normal_end g5 (by omega) _
    case op.loadIndex.refl =>
      exact (loadIndex_moves g w (fun j hj => by have := hS j hj; omega)).bind fun _ m1 g1 h1 => normal_end g1 (by omega) _
    case op.storeIndex.refl =>
      exact (setIndex_moves g id (fun _ h => h) (fun j hj => by have := hS j hj; omega)).bind fun _ m1 g1 h1 =>
        normal_end g1 (by omega) _
    case op.assignIndex.refl =>
      exact (setIndex_moves g (fun _ => .unit) (fun _ _ => trivial) (fun j hj => by have := hS j hj; omega)).bind
        fun _ m1 g1 h1 => normal_end g1 (by omega) _
    case op.assertBool.refl =>
      refine (peek_moves g 0).bind fun v m1 g1 h1 => ?_
      cases v <;> first | exact .err g1 | exact normal_end g1 (by omega) _
    all_goals exact bin _ hl
  | byte o b =>
    simp only [Instr.operands]
    cases o <;> simp only [Instr.effect] at he <;> cases he <;>
      simp only [Instr.opcode, step, operand_byte, pure_bind]
    case byte.dup.refl =>
      refine (peek_moves g _).bind fun v m1 g1 h1 => ?_
      exact (push_moves g1 h1.2.1 (fun j hj => by have := hS j hj; omega)).bind fun _ m2 g2 h2 => normal_end g2 (by omega) _
    case byte.createArray.refl =>
      refine (popCount_moves g _ (fun j hj => by have := hS j hj; omega)).bind fun vs m1 g1 h1 => ?_
      have := newArray_good g1.heap h1.2.1
      refine (onHeap_moves (P := fun v q => q = m1.ptr ∧ GoodValue v) g1 this.1 ⟨rfl, this.2⟩).bind fun v m2 g2 h2 => ?_
      exact (push_moves g2 h2.2 (fun j hj => by have := hS j hj; omega)).bind fun _ m3 g3 h3 => normal_end g3 (by omega) _
    case byte.loadLocal.refl =>
      refine (frameGet_moves g f _).bind fun v m1 g1 h1 => ?_
      exact (push_moves g1 h1.2.1 (fun j hj => by have := hS j hj; omega)).bind fun _ m2 g2 h2 => normal_end g2 (by omega) _
    case byte.storeLocal.refl =>
      refine (pop_moves g (fun j hj => by have := hS j hj; omega)).bind fun v m1 g1 h1 => ?_
      refine (frameSet_moves g1 _ h1.2 (by omega) (fun j hj => hj.out hsp)).bind fun _ m2 g2 h2 => ?_
      exact (push_moves g2 h1.2 (fun j hj => by have := hS j hj; omega)).bind fun _ m3 g3 h3 => normal_end g3 (by omega) _
    case byte.assignLocal.refl =>
      refine (pop_moves g (fun j hj => by have := hS j hj; omega)).bind fun v m1 g1 h1 => ?_
      refine (frameSet_moves g1 _ h1.2 (by omega) (fun j hj => hj.out hsp)).bind fun _ m2 g2 h2 => ?_
      exact (push_moves g2 (v := .unit) trivial (fun j hj => by have := hS j hj; omega)).bind fun _ m3 g3 h3 =>
        normal_end g3 (by omega) _
    case byte.loadUpvalue.refl =>
      refine (upvalueAt_moves g ups _).bind fun a m1 g1 h1 => ?_
      refine (readCell_moves g1 a).bind fun v m2 g2 h2 => ?_
      exact (push_moves g2 h2.2 (fun j hj => by have := hS j hj; omega)).bind fun _ m3 g3 h3 => normal_end g3 (by omega) _
    case byte.storeUpvalue.refl =>
      refine (upvalueAt_moves g ups _).bind fun a m1 g1 h1 => ?_
      refine (pop_moves g1 (fun j hj => by have := hS j hj; omega)).bind fun v m2 g2 h2 => ?_
      refine (writeCell_moves g2 a h2.2).bind fun _ m3 g3 h3 => ?_
      exact (push_moves g3 h2.2 (fun j hj => by have := hS j hj; omega)).bind fun _ m4 g4 h4 => normal_end g4 (by omega) _
    case byte.assignUpvalue.refl =>
      refine (upvalueAt_moves g ups _).bind fun a m1 g1 h1 => ?_
      refine (pop_moves g1 (fun j hj => by have := hS j hj; omega)).bind fun v m2 g2 h2 => ?_
      refine (writeCell_moves g2 a h2.2).bind fun _ m3 g3 h3 => ?_
      exact (push_moves g3 (v := .unit) trivial (fun j hj => by have := hS j hj; omega)).bind fun _ m4 g4 h4 =>
        normal_end g4 (by omega) _
    case byte.closeUpvalue.refl =>
      exact (closeUpvalue_moves g _ (by omega) (fun j hj => hj.out hsp)).bind fun _ m1 g1 h1 => normal_end g1 (by omega) _
    case byte.call.refl =>
      exact (cf _ m g (fun j hj => by have := hS j hj; omega)).bind fun _ m1 g1 h1 => normal_end g1 (by omega) _
    case byte.callSuper.refl =>
      refine (pop_moves g (fun j hj => by have := hS j hj; omega)).bind fun c m1 g1 h1 => ?_
      refine (asClass_moves g1 c).bind fun cls m2 g2 h2 => ?_
      refine (peek_moves g2 _).bind fun v m3 g3 h3 => ?_
      refine (hk.callCtor _ cls v m3 _ g3 h3.2.1 (fun j hj => by have := hS j hj; omega)).bind fun r m4 g4 h4 => ?_
      exact (push_moves g4 h4.2 (fun j hj => by have := hS j hj; omega)).bind fun _ m5 g5 h5 => normal_end g5 (by omega) _
    case byte.assertTypeForLocal.refl =>
      refine (pop_moves g (fun j hj => by have := hS j hj; omega)).bind fun c m1 g1 h1 => ?_
      refine (asClass_moves g1 c).bind fun cls m2 g2 h2 => ?_
      refine (frameGet_moves g2 f _).bind fun v m3 g3 h3 => ?_
      exact (assertTypeOf_moves g3 w _ cls v).bind fun _ m4 g4 h4 => normal_end g4 (by omega) _
    case byte.assertTypeOrNullForLocal.refl =>
      refine (pop_moves g (fun j hj => by have := hS j hj; omega)).bind fun c m1 g1 h1 => ?_
      refine (asClass_moves g1 c).bind fun cls m2 g2 h2 => ?_
      refine (frameGet_moves g2 f _).bind fun v m3 g3 h3 => ?_
      exact (assertTypeOf_moves g3 w _ cls v).bind fun _ m4 g4 h4 => normal_end g4 (by omega) _
  | const o c =>
    have hv : GoodValue c.toValue := constToValue_good hfn
    simp only [Instr.operands]
    cases o <;> simp only [Instr.effect] at he <;> cases he <;>
      simp only [Instr.opcode, step, symbolOperand_const]
    case const.pushConst.refl =>
      show Shifts m (do push c.toValue; pure (Next.goto 1)) _ _
      exact (push_moves g hv (fun j hj => by have := hS j hj; omega)).bind fun _ m2 g2 h2 => normal_end g2 (by omega) _
    case const.inheritClass.refl =>
      refine (asSymbol_moves g _).bind fun name m1 g1 h1 => ?_
      exact (inheritClass_moves g1 w name (fun j hj => by have := hS j hj; omega)).bind fun _ m2 g2 h2 =>
        normal_end g2 (by omega) _
    case const.storeGlobal.refl =>
      refine (asSymbol_moves g _).bind fun name m1 g1 h1 => ?_
      exact (storeGlobal_moves g1 name (fun j hj => by have := hS j hj; omega)).bind fun _ m2 g2 h2 =>
        normal_end g2 (by omega) _
    case const.loadGlobal.refl =>
      refine (asSymbol_moves g _).bind fun name m1 g1 h1 => ?_
      exact (loadGlobal_moves g1 name (fun j hj => by have := hS j hj; omega)).bind fun _ m2 g2 h2 =>
        normal_end g2 (by omega) _
    case const.loadField.refl =>
      refine (asSymbol_moves g _).bind fun name m1 g1 h1 => ?_
      refine (pop_moves g1 (fun j hj => by have := hS j hj; omega)).bind fun v m2 g2 h2 => ?_
      refine (getField_moves g2 w name h2.2).bind fun r m3 g3 h3 => ?_
      exact (push_moves g3 h3.2 (fun j hj => by have := hS j hj; omega)).bind fun _ m4 g4 h4 => normal_end g4 (by omega) _
    case const.storeField.refl =>
      refine (asSymbol_moves g _).bind fun name m1 g1 h1 => ?_
      refine (pop_moves g1 (fun j hj => by have := hS j hj; omega)).bind fun v m2 g2 h2 => ?_
      refine (pop_moves g2 (fun j hj => by have := hS j hj; omega)).bind fun o m3 g3 h3 => ?_
      refine (asObject_moves g3 o).bind fun obj m4 g4 h4 => ?_
      refine (onHeap_moves (P := fun _ q => q = m4.ptr) g4 (setField_good g4.heap obj name h2.2) rfl).bind fun _ m5 g5 h5 => ?_
      exact (push_moves g5 h2.2 (fun j hj => by have := hS j hj; omega)).bind fun _ m6 g6 h6 => normal_end g6 (by omega) _
    case const.assignField.refl =>
      refine (asSymbol_moves g _).bind fun name m1 g1 h1 => ?_
      refine (pop_moves g1 (fun j hj => by have := hS j hj; omega)).bind fun v m2 g2 h2 => ?_
      refine (pop_moves g2 (fun j hj => by have := hS j hj; omega)).bind fun o m3 g3 h3 => ?_
      refine (asObject_moves g3 o).bind fun obj m4 g4 h4 => ?_
      refine (onHeap_moves (P := fun _ q => q = m4.ptr) g4 (setField_good g4.heap obj name h2.2) rfl).bind fun _ m5 g5 h5 => ?_
      exact (push_moves g5 (v := .unit) trivial (fun j hj => by have := hS j hj; omega)).bind fun _ m6 g6 h6 =>
        normal_end g6 (by omega) _
    case const.loadMethod.refl =>
      refine (asSymbol_moves g _).bind fun name m1 g1 h1 => ?_
      refine (pop_moves g1 (fun j hj => by have := hS j hj; omega)).bind fun v m2 g2 h2 => ?_
      refine (pop_moves g2 (fun j hj => by have := hS j hj; omega)).bind fun o m3 g3 h3 => ?_
      refine (asClass_moves g3 o).bind fun cls m4 g4 h4 => ?_
      refine (testType_moves g4 w v cls).bind fun ok m5 g5 h5 => ?_
      split
      · refine (getMethod_moves g5 (some cls) name h2.2).bind fun r m6 g6 h6 => ?_
        exact (push_moves g6 h6.2 (fun j hj => by have := hS j hj; omega)).bind fun _ m7 g7 h7 => normal_end g7 (by omega) _
      · exact .err g5
    case const.storeMethod.refl =>
      refine (asSymbol_moves g _).bind fun name m1 g1 h1 => ?_
      refine (pop_moves g1 (fun j hj => by have := hS j hj; omega)).bind fun v m2 g2 h2 => ?_
      refine (pop_moves g2 (fun j hj => by have := hS j hj; omega)).bind fun o m3 g3 h3 => ?_
      refine (asClass_moves g3 o).bind fun cls m4 g4 h4 => ?_
      split
      · exact (onHeap_moves (P := fun _ q => q = m4.ptr) g4 (setMethod_good g4.heap cls name h2.2) rfl).bind fun _ m5 g5 h5 =>
          normal_end g5 (by omega) _
      · exact .panic g4
    case const.loadModule.refl =>
      refine (asSymbol_moves g _).bind fun name m1 g1 h1 => ?_
      exact (loadModule_moves g1 hw hk name (fun j hj => by have := hS j hj; omega)).bind fun _ m2 g2 h2 =>
        normal_end g2 (by omega) _
  | closure code name id captured =>
    simp only [Instr.effect] at he
    cases he
    simp only [Instr.operands, Instr.opcode, step]
    have hgood : GoodCode code := hfn code rfl
    have e0 : operand ⟨0 :: captured.flatMap Asm.captureBytes, 0, 0, [.fn code name id]⟩ 0 = pure 0 := rfl
    have e1 : constant ⟨0 :: captured.flatMap Asm.captureBytes, 0, 0, [.fn code name id]⟩ 0 =
      pure (.fnScript code name id) := rfl
    rw [e0]
    simp only [pure_bind]
    rw [e1]
    simp only [pure_bind, hc.1]
    refine (captures_moves g (f := f) ups captured (0 + 1) (fun j _ => ?_) (fun d hd h j hj => ?_)).bind
      fun us m1 g1 h1 => ?_
    · show (_ :: _)[0 + 1 + j]? = _
      rw [show 0 + 1 + j = j + 1 by omega]
      rfl
    · have := hc.2 d hd h
      have := Nat.mod_le d.description.2 256
      exact hj.out (hsp d hd h) (by omega)
    · exact (push_moves g1 (v := .fnClosure code name id us) hgood (fun j hj => by have := hS j hj; omega)).bind
        fun _ m2 g2 h2 => normal_end g2 (by omega) _
  | fieldToLocal field slot =>
    simp only [Instr.effect] at he
    cases he
    simp only [Instr.operands, Instr.opcode, step]
    have e0 : operand ⟨[0, slot], 0, 0, [.sym field]⟩ 0 = pure 0 := rfl
    have e1 : operand ⟨[0, slot], 0, 0, [.sym field]⟩ (0 + 1) = pure slot.toNat := rfl
    have e2 : constant ⟨[0, slot], 0, 0, [.sym field]⟩ 0 = pure (.sym field) := rfl
    rw [e0, e1]
    simp only [pure_bind]
    rw [e2]
    simp only [pure_bind, asSymbol]
    refine (pop_moves g (fun j hj => by have := hS j hj; omega)).bind fun v m1 g1 h1 => ?_
    refine (getField_moves g1 w field h1.2).bind fun r m2 g2 h2 => ?_
    refine (frameSet_moves g2 _ h2.2 (by omega) (fun j hj => hj.out hsp)).bind fun _ m3 g3 h3 => ?_
    exact (push_moves g3 h2.2 (fun j hj => by have := hS j hj; omega)).bind fun _ m4 g4 h4 => normal_end g4 (by omega) _

end Dice
