import Verif.ProgramRun

/-!
# Stack heights

A static discipline on structured code: at every point the number of values the function has on the stack is
known.  Code that follows it leaves the stack as described, whatever the values are.
-/

namespace Dice

/-! ## The discipline -/

/-- The functions in an instruction. -/
def Instr.HasFn : Instr → Bytecode → Prop
  | .const _ (.fn b _ _), bc => b = bc
  | .closure code _ _ _, bc => code = bc
  | _, _ => False

/-- The functions in a code. -/
def Code.HasFn : Code → Bytecode → Prop
  | .instr i, bc => i.HasFn bc
  | .seq a b, bc => a.HasFn bc ∨ b.HasFn bc
  | .skipIf _ c, bc => c.HasFn bc
  | .branch t e, bc => t.HasFn bc ∨ e.HasFn bc
  | .loop c, bc => c.HasFn bc
  | .chain c, bc => c.HasFn bc
  | _, _ => False

/-- A closure captures as many variables as its function expects, and the locals among them have numbers
below `N`. -/
def Instr.CapturesBelow (N : Nat) : Instr → Prop
  | .closure code _ _ captured => code.upvalueCount = captured.length ∧ ∀ d ∈ captured, d.description.1 = true → d.description.2 < N
  | _ => True

/-- How many values an instruction takes from the stack and how many it puts there. -/
def Instr.effect : Instr → Option (Nat × Nat)
  | .op o => match o with
    | .pushNull | .pushUnit | .pushFalse | .pushTrue | .pushI0 | .pushI1 | .pushF0 | .pushF1
    | .createObject => some (0, 1)
    | .pop => some (1, 0)
    | .swap => some (2, 2)
    | .negate | .not | .assertBool => some (1, 1)
    | .multiply | .divide | .remainder | .add | .subtract | .greaterThan | .greaterThanOrEqual | .lessThan
    | .lessThanOrEqual | .equal | .notEqual | .rangeInclusive | .rangeExclusive | .is | .loadIndex => some (2, 1)
    | .storeIndex | .assignIndex => some (3, 1)
    | _ => none
  | .byte o b => match o with
    | .dup | .loadLocal | .loadUpvalue => some (0, 1)
    | .createArray => some (b.toNat, 1)
    | .storeLocal | .assignLocal | .storeUpvalue | .assignUpvalue => some (1, 1)
    | .closeUpvalue => some (0, 0)
    | .call => some (b.toNat + 1, 1)
    | .callSuper => some (b.toNat + 2, 1)
    | .assertTypeForLocal | .assertTypeOrNullForLocal => some (1, 0)
    | _ => none
  | .const o _ => match o with
    | .pushConst | .loadGlobal | .loadModule => some (0, 1)
    | .inheritClass | .loadField => some (1, 1)
    | .storeGlobal => some (1, 0)
    | .storeField | .assignField | .loadMethod => some (2, 1)
    | .storeMethod => some (2, 0)
    | _ => none
  | .closure .. => some (0, 1)
  | .fieldToLocal .. => some (1, 1)

/-- The heights expected where breaks, continues and exits lead to. -/
structure Targets where
  brk : Option Nat := none
  cont : Option Nat := none
  exit : Option Nat := none

/-- Code of straight-line instructions. -/
def Code.Straight : Code → Prop
  | .nop => True
  | .instr _ => True
  | .seq a b => a.Straight ∧ b.Straight
  | _ => False

/-- Code that always returns from the function. -/
inductive Code.Leaves : Code → Prop where
  | ret : Leaves (.op .return_)
  | retTyped {b} : Leaves (.op (returnCheck b))
  | left {a b} (h : Leaves a) : Leaves (.seq a b)
  | right {a b} (ha : a.Straight) (h : Leaves b) : Leaves (.seq a b)

/-- `Typed N K l p c q`: started with `p` values of the function on the stack, the code `c` never touches the
lowest `l` of them, unless it returns from the function, and ends with `q` values. -/
inductive Typed (N : Nat) : Targets → Nat → Nat → Code → Nat → Prop where
  | nop {K l p} : Typed N K l p .nop p
  | instr {K l p i k r} (h : Instr.effect i = some (k, r)) (hl : l + k ≤ p) (hc : i.CapturesBelow N) :
      Typed N K l p (.instr i) (p - k + r)
  | ret {K l q} : Typed N K l 1 (.op .return_) q
  | retTyped {K l q b} (hl : l ≤ 1) : Typed N K l 2 (.op (returnCheck b)) q
  | seq {K l p q r a b} (h1 : Typed N K l p a q) (h2 : Typed N K l q b r) : Typed N K l p (.seq a b) r
  | skipIf {K l p b c} (hl : l ≤ p) (h : Typed N K l p c p) : Typed N K l (p + 1) (.skipIf b c) p
  | branch {K l p q t e} (hl : l ≤ p) (h1 : Typed N K l p t q) (h2 : Typed N K l p e q) :
      Typed N K l (p + 1) (.branch t e) q
  | loop {K : Targets} {l p q c} (h : Typed N { K with brk := some q, cont := some p } l p c p) :
      Typed N K l p (.loop c) q
  | breakIf {K l p b} (hl : l ≤ p) (h : K.brk = some p) : Typed N K l (p + 1) (.breakIf b) p
  | brk {K l p q} (h : K.brk = some p) : Typed N K l p .brk q
  | cont {K l p q} (h : K.cont = some p) : Typed N K l p .cont q
  | chain {K : Targets} {l p q c} (h : Typed N { K with exit := some q } l p c q) : Typed N K l p (.chain c) q
  | exitIf {K l p b} (hl : l ≤ p) (h : K.exit = some p) : Typed N K l (p + 1) (.exitIf b) p
  | leave {K l p q r c} (h : Typed N K 0 p c r) (hc : c.Leaves) : Typed N K l p c q

/-- Bytecode that holds code following the discipline, from an empty stack to a single result, and likewise for
the functions inside. -/
inductive GoodCode : Bytecode → Prop where
  | mk {bc : Bytecode} {c : Code} (layout : Layout bc 0 bc.data.length 0 0 0 c)
      (typed : Typed bc.slotCount {} 0 0 c 1) (fns : ∀ b, c.HasFn b → GoodCode b) : GoodCode bc

/-- The functions in a value follow the discipline. -/
def GoodValue : Value → Prop
  | .fnScript bc _ _ => GoodCode bc
  | .fnClosure bc _ _ _ => GoodCode bc
  | .fnBound r f => GoodValue r ∧ GoodValue f
  | _ => True

def GoodMap (mp : ValueMap) : Prop := ∀ k v, (k, v) ∈ mp → GoodValue v

structure GoodHeap (h : Heap) : Prop where
  maps : ∀ mp ∈ h.maps, GoodMap mp
  arrays : ∀ a ∈ h.arrays, ∀ v ∈ a.elements, GoodValue v
  methods : ∀ c ∈ h.classes, GoodMap c.methods

/-- A captured variable lives at stack position `j`. -/
def VM.OpenAt (m : VM) (j : Nat) : Prop := ∃ a : Nat, m.cells[a]? = some (Cell.open j)

/-- All functions of the machine follow the discipline, and everything above the stack pointer is null, except
where a captured variable was left behind. -/
structure GoodVM (m : VM) : Prop where
  mem : ∀ j, GoodValue (m.mem j)
  heap : GoodHeap m.heap
  cells : ∀ v, Cell.closed v ∈ m.cells → GoodValue v
  globals : GoodMap m.globals
  modules : GoodMap m.modules
  clean : ∀ j, m.ptr ≤ j → m.mem j = .null ∨ m.OpenAt j

/-- Natives and modules give only good functions. -/
structure GoodWorld (w : World) : Prop where
  native : ∀ i args h, (∀ v ∈ args, GoodValue v) → GoodHeap h →
    GoodHeap (w.native i args h).2 ∧ ∀ v, (w.native i args h).1 = .ok v → GoodValue v
  loader : ∀ name bc, w.loader name = .ok bc → GoodCode bc ∧ 0 < bc.slotCount

/-! ## Moving the machine -/

/-- The stack positions in `S` keep their values unless a captured variable lives there, and no new captured
variables appear there. -/
def Keep (S : Nat → Prop) (m m' : VM) : Prop :=
  ∀ j, S j → (m'.mem j = m.mem j ∨ m.OpenAt j) ∧ (m'.OpenAt j → m.OpenAt j)

theorem Keep.refl (S : Nat → Prop) (m : VM) : Keep S m m := fun _ _ => ⟨.inl rfl, id⟩

theorem Keep.trans {S : Nat → Prop} {a b c : VM} (h1 : Keep S a b) (h2 : Keep S b c) : Keep S a c := by
  intro j hj
  obtain ⟨v1, o1⟩ := h1 j hj
  obtain ⟨v2, o2⟩ := h2 j hj
  refine ⟨?_, fun h => o1 (o2 h)⟩
  rcases v2 with v2 | v2
  · rcases v1 with v1 | v1
    · exact .inl (v2.trans v1)
    · exact .inr v1
  · exact .inr (o1 v2)

theorem Keep.mono {S T : Nat → Prop} {m m' : VM} (h : Keep S m m') (hs : ∀ j, T j → S j) : Keep T m m' :=
  fun j hj => h j (hs j hj)

/-- From the good state `m`, the computation leaves a good state, and if it succeeds, its result and the stack
pointer satisfy `P` and the positions in `S` are kept. -/
structure Shifts {α : Type} (m : VM) (x : V α) (S : Nat → Prop) (P : α → Nat → Prop) : Prop where
  good : GoodVM (x m).2
  ok : ∀ a m', x m = (.ok a, m') → P a m'.ptr ∧ Keep S m m'

section
variable {α β : Type} {m : VM} {S : Nat → Prop}

theorem Shifts.bind {x : V α} {f : α → V β} {P : α → Nat → Prop} {Q : β → Nat → Prop} (hx : Shifts m x S P)
    (hf : ∀ a m', GoodVM m' → P a m'.ptr → Shifts m' (f a) S Q) : Shifts m (x >>= f) S Q := by
  cases h : x m with
  | mk o m1 =>
    have g1 : GoodVM m1 := by have := hx.good; rw [h] at this; exact this
    cases o with
    | ok a =>
      obtain ⟨hp, hk⟩ := hx.ok a m1 h
      have h2 := hf a m1 g1 hp
      refine ⟨by rw [bind_ok h]; exact h2.good, fun b m' hb => ?_⟩
      rw [bind_ok h] at hb
      obtain ⟨hq, hk2⟩ := h2.ok b m' hb
      exact ⟨hq, hk.trans hk2⟩
    | err e => exact ⟨by rw [bind_err h]; exact g1, fun b m' hb => by rw [bind_err h] at hb; cases hb⟩
    | panic e => exact ⟨by rw [bind_panic h]; exact g1, fun b m' hb => by rw [bind_panic h] at hb; cases hb⟩
    | timeout => exact ⟨by rw [bind_timeout h]; exact g1, fun b m' hb => by rw [bind_timeout h] at hb; cases hb⟩

theorem Shifts.mono {x : V α} {P Q : α → Nat → Prop} {T : Nat → Prop} (h : Shifts m x S P)
    (hs : ∀ j, T j → S j) (hp : ∀ a p, P a p → Q a p) : Shifts m x T Q :=
  ⟨h.good, fun a m' ha => ⟨hp _ _ (h.ok a m' ha).1, (h.ok a m' ha).2.mono hs⟩⟩

theorem Shifts.weaken {x : V α} {P Q : α → Nat → Prop} (h : Shifts m x S P)
    (hp : ∀ a p, P a p → Q a p) : Shifts m x S Q := h.mono (fun _ h => h) hp

theorem Shifts.read {x : V α} {P : α → Nat → Prop} (g : GoodVM m) (h : (x m).2 = m)
    (hp : ∀ a, (x m).1 = .ok a → P a m.ptr) : Shifts m x S P := by
  refine ⟨by rw [h]; exact g, fun a m' ha => ?_⟩
  have hm : m' = m := by rw [ha] at h; exact h
  subst hm
  exact ⟨hp a (by rw [ha]), Keep.refl _ _⟩

theorem Shifts.pure {a : α} {P : α → Nat → Prop} (g : GoodVM m) (hp : P a m.ptr) :
    Shifts m (Pure.pure a : V α) S P :=
  .read g rfl (fun b hb => by cases hb; exact hp)

theorem Shifts.err {e : RtErr} {P : α → Nat → Prop} (g : GoodVM m) : Shifts m (V.err e : V α) S P :=
  .read g rfl (fun b hb => by cases hb)

theorem Shifts.panic {e : String} {P : α → Nat → Prop} (g : GoodVM m) : Shifts m (V.panic e : V α) S P :=
  .read g rfl (fun b hb => by cases hb)

theorem Shifts.timeout {P : α → Nat → Prop} (g : GoodVM m) : Shifts m (V.timeout : V α) S P :=
  .read g rfl (fun b hb => by cases hb)

/-! ### The stack -/

theorem upd_good {mem : Nat → Value} (h : ∀ j, GoodValue (mem j)) {i : Nat} {v : Value} (hv : GoodValue v) (j : Nat) :
    GoodValue (upd mem i v j) := by
  unfold upd
  split
  · exact hv
  · exact h j

theorem memClear_good {mem : Nat → Value} (h : ∀ j, GoodValue (mem j)) (a b : Nat) (j : Nat) :
    GoodValue (memClear mem a b j) := by
  unfold memClear
  split
  · trivial
  · exact h j

theorem push_moves (g : GoodVM m) {v : Value} (hv : GoodValue v) (hS : ∀ j, S j → j < m.ptr) :
    Shifts m (push v) S (fun _ p => p = m.ptr + 1) := by
  unfold push
  constructor
  · show GoodVM (ite _ _ _ : Outcome Unit × VM).2
    split
    · exact { g with
        mem := upd_good g.mem hv
        clean := fun j hj => by
          have hj : m.ptr + 1 ≤ j := hj
          rcases g.clean j (by omega) with h | h
          · exact .inl (by rw [← h]; exact upd_other (by omega))
          · exact .inr h }
    · exact g
  · intro a m' h
    split at h
    · cases h
      exact ⟨rfl, fun j hj => ⟨.inl (upd_other (by have := hS j hj; omega)), id⟩⟩
    · cases h

theorem pop_moves (g : GoodVM m) (hS : ∀ j, S j → j + 1 < m.ptr) :
    Shifts m pop S (fun v p => p + 1 = m.ptr ∧ GoodValue v) := by
  unfold pop
  constructor
  · show GoodVM (ite _ _ _ : Outcome Value × VM).2
    split
    · exact g
    · rename_i hc
      exact { g with
        mem := upd_good g.mem trivial
        clean := fun j hj => by
          have hj : m.ptr - 1 ≤ j := hj
          show upd m.mem (m.ptr - 1) .null j = .null ∨ m.OpenAt j
          by_cases hj2 : j = m.ptr - 1
          · exact .inl (by rw [hj2]; exact upd_same _ _ _)
          · rw [upd_other hj2]
            exact g.clean j (by omega) }
  · intro a m' h
    split at h
    · cases h
    · rename_i hc
      cases h
      exact ⟨⟨by show m.ptr - 1 + 1 = m.ptr; omega, g.mem _⟩,
        fun j hj => ⟨.inl (upd_other (by have := hS j hj; omega)), id⟩⟩

theorem peek_moves (g : GoodVM m) (i : Nat) :
    Shifts m (peek i) S (fun v p => p = m.ptr ∧ GoodValue v ∧ i < m.ptr) := by
  refine .read g (peek_state i m) (fun a ha => ?_)
  unfold peek at ha
  split at ha
  · rename_i h
    cases ha
    exact ⟨rfl, g.mem _, h.1⟩
  · cases ha

theorem setMem_good (g : GoodVM m) {i : Nat} {v : Value} (hv : GoodValue v) (hi : i < m.ptr) :
    GoodVM { m with mem := upd m.mem i v } :=
  { g with
    mem := upd_good g.mem hv
    clean := fun j hj => by
      have hj : m.ptr ≤ j := hj
      show upd m.mem i v j = .null ∨ m.OpenAt j
      rw [upd_other (by omega)]
      exact g.clean j hj }

theorem poke_moves (g : GoodVM m) (i : Nat) {v : Value} (hv : GoodValue v) (hS : ∀ j, S j → j + i + 1 < m.ptr) :
    Shifts m (poke i v) S (fun _ p => p = m.ptr) := by
  unfold poke
  constructor
  · show GoodVM (ite _ _ _ : Outcome Unit × VM).2
    split
    · exact setMem_good g hv (by omega)
    · exact g
  · intro a m' h
    split at h
    · cases h
      exact ⟨rfl, fun j hj => ⟨.inl (upd_other (by have := hS j hj; omega)), id⟩⟩
    · cases h

theorem clear_good (g : GoodVM m) {a b p : Nat} (hp : m.ptr = b) (hq : p = a) :
    GoodVM { m with mem := memClear m.mem a b, ptr := p } :=
  { g with
    mem := memClear_good g.mem a b
    clean := fun j hj => by
      have hj : p ≤ j := hj
      show memClear m.mem a b j = .null ∨ m.OpenAt j
      unfold memClear
      split
      · exact .inl rfl
      · exact g.clean j (by omega) }

theorem memRange_good {mem : Nat → Value} (h : ∀ j, GoodValue (mem j)) (a b : Nat) :
    ∀ v ∈ memRange mem a b, GoodValue v := by
  intro v hv
  unfold memRange at hv
  obtain ⟨i, -, rfl⟩ := List.mem_map.1 hv
  exact h _

theorem popCount_moves (g : GoodVM m) (n : Nat) (hS : ∀ j, S j → j + n < m.ptr) :
    Shifts m (popCount n) S (fun vs p => p + n = m.ptr ∧ (∀ v ∈ vs, GoodValue v) ∧ vs.length = n) := by
  unfold popCount
  constructor
  · show GoodVM (ite _ _ _ : Outcome (List Value) × VM).2
    split
    · exact clear_good g rfl rfl
    · exact g
  · intro a m' h
    split at h
    · rename_i hc
      cases h
      refine ⟨⟨by show m.ptr - n + n = m.ptr; omega, memRange_good g.mem _ _, by simp [memRange]⟩, fun j hj => ⟨.inl ?_, id⟩⟩
      have := hS j hj
      show memClear m.mem _ _ j = _
      unfold memClear
      rw [if_neg (by omega)]
    · cases h

theorem swap_moves (g : GoodVM m) (hS : ∀ j, S j → j + 2 < m.ptr + 0) :
    Shifts m swap S (fun _ p => p = m.ptr) := by
  unfold swap
  constructor
  · show GoodVM (ite _ _ _ : Outcome Unit × VM).2
    split
    · rename_i hc
      have g1 := setMem_good (i := m.ptr - 2) g (g.mem (m.ptr - 1)) (by omega)
      exact setMem_good (m := { m with mem := upd m.mem (m.ptr - 2) (m.mem (m.ptr - 1)) }) (i := m.ptr - 1) g1
        (g.mem (m.ptr - 2)) (by show m.ptr - 1 < m.ptr; omega)
    · exact g
  · intro a m' h
    split at h
    · cases h
      refine ⟨rfl, fun j hj => ⟨.inl ?_, id⟩⟩
      have := hS j hj
      exact (upd_other (by omega)).trans (upd_other (by omega))
    · cases h

theorem reserve_moves (g : GoodVM m) (w : World) (n : Nat) :
    Shifts m (reserveSlots w n) S (fun f p => f.start = m.ptr ∧ f.stop = m.ptr + n ∧ p = m.ptr + n) := by
  have g' : GoodVM { m with ptr := m.ptr + n } :=
    { g with clean := fun j hj => g.clean j (by have hj : m.ptr + n ≤ j := hj; omega) }
  unfold reserveSlots
  constructor
  · show GoodVM (ite _ _ _ : Outcome Frame × VM).2
    split
    · exact g'
    · exact g'
  · intro a m' h
    simp only at h
    split at h
    · cases h
    · cases h
      exact ⟨⟨rfl, rfl, rfl⟩, fun j hj => ⟨.inl rfl, id⟩⟩

theorem release_moves (g : GoodVM m) (w : World) {f : Frame} (hf : m.ptr = f.stop) (hS : ∀ j, S j → j < f.start) :
    Shifts m (releaseFrame w f) S (fun _ p => p = f.start ∧ f.start ≤ f.stop) := by
  unfold releaseFrame
  have g' : f.start ≤ f.stop →
      GoodVM { m with mem := memClear m.mem f.start f.stop, ptr := m.ptr - (f.stop - f.start) } :=
    fun h => clear_good g hf (by omega)
  constructor
  · show GoodVM (ite _ _ _ : Outcome Unit × VM).2
    split
    · rename_i hc
      split
      · exact g
      · simp only
        split
        · exact g' hc.1
        · exact g' hc.1
    · exact g
  · intro a m' h
    split at h
    · rename_i hc
      split at h
      · cases h
      · simp only at h
        split at h
        · cases h
        · cases h
          refine ⟨⟨by show m.ptr - (f.stop - f.start) = f.start; omega, hc.1⟩, fun j hj => ⟨.inl ?_, id⟩⟩
          have := hS j hj
          show memClear m.mem _ _ j = _
          unfold memClear
          rw [if_neg (by omega)]
    · cases h

theorem frameGet_moves (g : GoodVM m) (f : Frame) (i : Nat) :
    Shifts m (frameGet f i) S (fun v p => p = m.ptr ∧ GoodValue v ∧ f.start + i < f.stop) := by
  refine .read g (frameGet_state f i m) (fun a ha => ?_)
  unfold frameGet at ha
  split at ha
  · rename_i h
    cases ha
    exact ⟨rfl, g.mem _, h.2⟩
  · cases ha

theorem frameSet_moves (g : GoodVM m) {f : Frame} (i : Nat) {v : Value} (hv : GoodValue v) (hf : f.stop ≤ m.ptr)
    (hS : ∀ j, S j → f.start + i < f.stop → j ≠ f.start + i) : Shifts m (frameSet f i v) S (fun _ p => p = m.ptr) := by
  unfold frameSet
  constructor
  · show GoodVM (ite _ _ _ : Outcome Unit × VM).2
    split
    · exact setMem_good g hv (by omega)
    · exact g
  · intro a m' h
    split at h
    · rename_i hc
      cases h
      exact ⟨rfl, fun j hj => ⟨.inl (upd_other (hS j hj hc.2)), id⟩⟩
    · cases h

theorem memSet_moves (g : GoodVM m) {i : Nat} {v : Value} (hv : GoodValue v) (hi : i < m.ptr)
    (hS : ∀ j, S j → j ≠ i) : Shifts m (memSet i v) S (fun _ p => p = m.ptr) := by
  unfold memSet
  constructor
  · show GoodVM (ite _ _ _ : Outcome Unit × VM).2
    split
    · exact setMem_good g hv hi
    · exact g
  · intro a m' h
    split at h
    · cases h
      exact ⟨rfl, fun j hj => ⟨.inl (upd_other (hS j hj)), id⟩⟩
    · cases h

/-! ### Conversions and operands -/

theorem asBool_moves (g : GoodVM m) (v : Value) : Shifts m (asBool v) S (fun _ p => p = m.ptr) :=
  .read g (asBool_state v m) (fun _ _ => rfl)

theorem asSymbol_moves (g : GoodVM m) (v : Value) : Shifts m (asSymbol v) S (fun _ p => p = m.ptr) :=
  .read g (asSymbol_state v m) (fun _ _ => rfl)

theorem asClass_moves (g : GoodVM m) (v : Value) : Shifts m (asClass v) S (fun _ p => p = m.ptr) :=
  .read g (asClass_state v m) (fun _ _ => rfl)

theorem asObject_moves (g : GoodVM m) (v : Value) : Shifts m (asObject v) S (fun _ p => p = m.ptr) :=
  .read g (asObject_state v m) (fun _ _ => rfl)

theorem testType_moves (g : GoodVM m) (w : World) (v : Value) (c : Nat) :
    Shifts m (testType w v c) S (fun _ p => p = m.ptr) := .read g rfl (fun _ _ => rfl)

theorem assertTypeOf_moves (g : GoodVM m) (w : World) (b : Bool) (c : Nat) (v : Value) :
    Shifts m (assertTypeOf w b c v) S (fun _ p => p = m.ptr) :=
  .read g (assertTypeOf_state w b c v m) (fun _ _ => rfl)

/-! ### The heap -/

theorem GoodMap.get {mp : ValueMap} (h : GoodMap mp) {k : String} {v : Value} (hv : mp.get k = some v) :
    GoodValue v := by
  induction mp with
  | nil => cases hv
  | cons e mp ih =>
    obtain ⟨k', v'⟩ := e
    unfold ValueMap.get at hv
    rw [List.lookup_cons] at hv
    split at hv
    · cases hv
      exact h k' v (by simp)
    · exact ih (fun k v hk => h k v (by simp [hk])) hv

theorem GoodMap.insert {mp : ValueMap} (h : GoodMap mp) (k : String) {v : Value} (hv : GoodValue v) :
    GoodMap (mp.insert k v) := by
  intro k' v' hk
  rcases List.mem_cons.1 hk with hk | hk
  · cases hk; exact hv
  · exact h _ _ hk

theorem onHeap_moves (g : GoodVM m) {f : Heap → α × Heap} {P : α → Nat → Prop} (hh : GoodHeap (f m.heap).2)
    (hp : P (f m.heap).1 m.ptr) : Shifts m (onHeap f) S P := by
  unfold onHeap
  exact ⟨{ g with heap := hh }, fun a m' h => by cases h; exact ⟨hp, fun j hj => ⟨.inl rfl, id⟩⟩⟩

theorem newObj_good {h : Heap} (g : GoodHeap h) (c : Option Nat) : GoodHeap (h.newObj c).2 :=
  { g with
    maps := fun mp hm => by
      rcases List.mem_append.1 hm with hm | hm
      · exact g.maps mp hm
      · rw [List.mem_singleton.1 hm]
        intro k v hv
        cases hv }

theorem newObject_good {h : Heap} (g : GoodHeap h) (c : Nat) :
    GoodHeap (h.newObject c).2 ∧ GoodValue (h.newObject c).1 :=
  ⟨{ newObj_good g (some c) with }, trivial⟩

theorem newArray_good {h : Heap} (g : GoodHeap h) {xs : List Value} (hx : ∀ v ∈ xs, GoodValue v) :
    GoodHeap (h.newArray xs).2 ∧ GoodValue (h.newArray xs).1 :=
  ⟨{ newObj_good g none with
      arrays := fun a ha => by
        rcases List.mem_append.1 ha with ha | ha
        · exact g.arrays a ha
        · rw [List.mem_singleton.1 ha]
          exact hx }, trivial⟩

theorem mem_modify {β : Type} {l : List β} {i : Nat} {f : β → β} {x : β} (h : x ∈ l.modify i f) :
    x ∈ l ∨ ∃ y ∈ l, x = f y := by
  induction l generalizing i with
  | nil => simp [List.modify_nil] at h
  | cons a l ih =>
    cases i with
    | zero =>
      rw [List.modify_zero_cons] at h
      rcases List.mem_cons.1 h with h | h
      · exact .inr ⟨a, by simp, h⟩
      · exact .inl (by simp [h])
    | succ i =>
      rw [List.modify_succ_cons] at h
      rcases List.mem_cons.1 h with h | h
      · exact .inl (by simp [h])
      · rcases ih h with h | ⟨y, hy, h⟩
        · exact .inl (by simp [h])
        · exact .inr ⟨y, by simp [hy], h⟩

theorem setField_good {h : Heap} (g : GoodHeap h) (o : Obj) (key : String) {v : Value} (hv : GoodValue v) :
    GoodHeap (h.setField o key v) :=
  { g with
    maps := fun mp hm => by
      rcases mem_modify hm with hm | ⟨y, hy, rfl⟩
      · exact g.maps mp hm
      · exact (g.maps y hy).insert key hv }

theorem setMethod_good {h : Heap} (g : GoodHeap h) (c : Nat) (key : String) {v : Value} (hv : GoodValue v) :
    GoodHeap (h.setMethod c key v) :=
  { g with
    methods := fun cl hm => by
      rcases mem_modify hm with hm | ⟨y, hy, rfl⟩
      · exact g.methods cl hm
      · exact (g.methods y hy).insert key hv }

theorem classWithBase_good {h : Heap} (g : GoodHeap h) (name : String) (base : Nat) {b : Cls} (hb : b ∈ h.classes) :
    GoodHeap (h.classWithBase name base b).2 :=
  { g with
    methods := fun cl hm => by
      rcases List.mem_append.1 hm with hm | hm
      · exact g.methods cl hm
      · rw [List.mem_singleton.1 hm]
        intro k v hk
        exact g.methods b hb k v (List.mem_filter.1 hk).1 }

theorem field_good {h : Heap} (g : GoodHeap h) {o : Obj} {key : String} {v : Value} (hv : h.field o key = some v) :
    GoodValue v := by
  unfold Heap.field at hv
  obtain ⟨mp, hm, hv⟩ := Option.bind_eq_some_iff.1 hv
  exact (g.maps mp (List.mem_of_getElem? hm)).get hv

theorem method_good {h : Heap} (g : GoodHeap h) {c : Nat} {key : String} {v : Value} (hv : h.method c key = some v) :
    GoodValue v := by
  unfold Heap.method at hv
  obtain ⟨cl, hm, hv⟩ := Option.bind_eq_some_iff.1 hv
  exact (g.methods cl (List.mem_of_getElem? hm)).get hv

theorem getMethod_moves (g : GoodVM m) (c : Option Nat) (key : String) {v : Value} (hv : GoodValue v) :
    Shifts m (getMethod c key v) S (fun r p => p = m.ptr ∧ GoodValue r) := by
  refine .read g (getMethod_state c key v m) (fun a ha => ?_)
  unfold getMethod at ha
  split at ha
  · rename_i f hf
    cases ha
    obtain ⟨c', -, hf⟩ := Option.bind_eq_some_iff.1 hf
    exact ⟨rfl, hv, method_good g.heap hf⟩
  · cases ha
    exact ⟨rfl, trivial⟩

theorem getField_moves (g : GoodVM m) (w : World) (key : String) {v : Value} (hv : GoodValue v) :
    Shifts m (getField w key v) S (fun r p => p = m.ptr ∧ GoodValue r) := by
  refine .read g (getField_state w key v m) (fun a ha => ?_)
  unfold getField at ha
  split at ha
  · rename_i f hf
    cases ha
    unfold Heap.ownField at hf
    split at hf
    · exact ⟨rfl, field_good g.heap hf⟩
    · cases hf
  · split at ha
    · cases ha
    · have := (getMethod_moves (S := fun _ => False) g (m.heap.classOf w v) key hv).ok a m (by
        rw [← ha]
        exact Prod.ext rfl (getMethod_state _ _ _ _))
      exact this.1

theorem getIndex_element (w : World) (a : Nat) (k : Int) (m : VM) :
    getIndex w (.array a) (.int k) m = (match m.heap.arrays[a]? with
      | some arr => (.ok (if 0 ≤ k then (arr.elements[k.toNat]?).getD .null else .null), m)
      | none => (.panic "dangling array", m)) := rfl

theorem putIndex_element (a : Nat) (k : Int) (v : Value) (m : VM) :
    putIndex (.array a) (.int k) v m = (match m.heap.arrays[a]? with
      | some arr =>
        if 0 ≤ k ∧ k.toNat < arr.elements.length then
          (.ok (), { m with heap := { m.heap with
            arrays := m.heap.arrays.set a { arr with elements := arr.elements.set k.toNat v } } })
        else (.panic "index out of bounds", m)
      | none => (.panic "dangling array", m)) := rfl

theorem getIndex_moves (g : GoodVM m) (w : World) {t : Value} (i : Value) (ht : GoodValue t) :
    Shifts m (getIndex w t i) S (fun r p => p = m.ptr ∧ GoodValue r) := by
  have other : Shifts m (do let field ← asSymbol i; getField w field t) S (fun r p => p = m.ptr ∧ GoodValue r) :=
    (asSymbol_moves g i).bind (fun key m' g' hp => by rw [← hp]; exact getField_moves g' w key ht)
  have key : (∃ a k, t = .array a ∧ i = .int k) ∨ getIndex w t i = (do let field ← asSymbol i; getField w field t) := by
    cases t with
    | array a =>
      cases i with
      | int k => exact .inl ⟨_, _, rfl, rfl⟩
      | _ => exact .inr rfl
    | _ => exact .inr rfl
  rcases key with ⟨a, k, rfl, rfl⟩ | key
  · refine .read g (getIndex_state _ _ _ _) ?_
    intro r hr
    rw [getIndex_element] at hr
    split at hr
    · rename_i arr harr
      cases hr
      refine ⟨rfl, ?_⟩
      split
      · cases he : arr.elements[k.toNat]? with
        | none => trivial
        | some v => exact g.heap.arrays arr (List.mem_of_getElem? harr) v (List.mem_of_getElem? he)
      · trivial
    · cases hr
  · rw [key]
    exact other

theorem putIndex_moves (g : GoodVM m) (t i : Value) {v : Value} (hv : GoodValue v) :
    Shifts m (putIndex t i v) S (fun _ p => p = m.ptr) := by
  have other : Shifts m (do
      let object ← asObject t
      let field ← asSymbol i
      onHeap fun h => ((), h.setField object field v)) S (fun _ p => p = m.ptr) :=
    (asObject_moves g t).bind fun o m1 g1 h1 => by
      rw [← h1]
      refine (asSymbol_moves g1 i).bind fun key m2 g2 h2 => ?_
      rw [← h2]
      exact onHeap_moves g2 (setField_good g2.heap o key hv) rfl
  have key : (∃ a k, t = .array a ∧ i = .int k) ∨ putIndex t i v = (do
      let object ← asObject t
      let field ← asSymbol i
      onHeap fun h => ((), h.setField object field v)) := by
    cases t with
    | array a =>
      cases i with
      | int k => exact .inl ⟨_, _, rfl, rfl⟩
      | _ => exact .inr rfl
    | _ => exact .inr rfl
  rcases key with ⟨a, k, rfl, rfl⟩ | key
  · cases harr : m.heap.arrays[a]? with
    | none => exact .read g (by simp only [putIndex_element, harr]) (fun _ _ => rfl)
    | some arr =>
      by_cases hk : 0 ≤ k ∧ k.toNat < arr.elements.length
      · constructor
        · simp only [putIndex_element, harr, hk, and_self, if_true]
          have hh : GoodHeap { m.heap with
              arrays := m.heap.arrays.set a { arr with elements := arr.elements.set k.toNat v } } :=
            { g.heap with
              arrays := fun x hx => by
                rcases List.mem_or_eq_of_mem_set hx with hx | hx
                · exact g.heap.arrays x hx
                · rw [hx]
                  intro u hu
                  rcases List.mem_or_eq_of_mem_set hu with hu | hu
                  · exact g.heap.arrays arr (List.mem_of_getElem? harr) u hu
                  · rw [hu]; exact hv }
          exact { g with heap := hh }
        · intro r m' h
          simp only [putIndex_element, harr, hk, and_self, if_true] at h
          cases h
          exact ⟨rfl, fun j hj => ⟨.inl rfl, id⟩⟩
      · exact .read g (by simp only [putIndex_element, harr, hk, if_false]) (fun _ _ => rfl)
  · rw [key]
    exact other

/-! ### Captured variables -/

theorem readCell_moves (g : GoodVM m) (a : Nat) : Shifts m (readCell a) S (fun v p => p = m.ptr ∧ GoodValue v) := by
  refine .read g (readCell_state a m) (fun v hv => ?_)
  unfold readCell at hv
  split at hv
  · unfold memGet at hv
    split at hv
    · cases hv
      exact ⟨rfl, g.mem _⟩
    · cases hv
  · rename_i x hx
    cases hv
    exact ⟨rfl, g.cells _ (List.mem_of_getElem? hx)⟩
  · cases hv

theorem OpenAt.set_closed {a : Nat} {v : Value} {cells : List Cell} {j : Nat}
    (h : ∃ b : Nat, (cells.set a (.closed v))[b]? = some (Cell.open j)) : ∃ b : Nat, b ≠ a ∧ cells[b]? = some (Cell.open j) := by
  obtain ⟨b, hb⟩ := h
  rw [List.getElem?_set] at hb
  split at hb
  · split at hb <;> cases hb
  · rename_i hne
    exact ⟨b, fun h => hne h.symm, hb⟩

theorem writeCell_moves (g : GoodVM m) (a : Nat) {v : Value} (hv : GoodValue v) :
    Shifts m (writeCell a v) S (fun _ p => p = m.ptr) := by
  unfold writeCell
  cases hc : m.cells[a]? with
  | none => exact ⟨by simp only [hc]; exact g, fun r m' h => by simp only [hc] at h; cases h⟩
  | some c =>
    cases c with
    | «open» s =>
      by_cases hs : s < maxStack
      · constructor
        · simp only [hc, memSet, hs, if_true]
          exact { g with
            mem := upd_good g.mem hv
            clean := fun j hj => by
              show upd m.mem s v j = .null ∨ m.OpenAt j
              by_cases h : j = s
              · exact .inr ⟨a, by rw [h]; exact hc⟩
              · rw [upd_other h]; exact g.clean j hj }
        · intro r m' h
          simp only [hc, memSet, hs, if_true] at h
          cases h
          refine ⟨rfl, fun j hj => ⟨?_, id⟩⟩
          by_cases h : j = s
          · exact .inr ⟨a, by rw [h]; exact hc⟩
          · exact .inl (upd_other h)
      · exact .read g (by simp only [hc, memSet, hs, if_false]) (fun _ _ => rfl)
    | closed x =>
      constructor
      · simp only [hc]
        exact { g with
          cells := fun u hu => by
            rcases List.mem_or_eq_of_mem_set hu with hu | hu
            · exact g.cells u hu
            · cases hu; exact hv
          clean := fun j hj => by
            rcases g.clean j hj with h | ⟨b, hb⟩
            · exact .inl h
            · refine .inr ⟨b, ?_⟩
              show (m.cells.set a (.closed v))[b]? = _
              rw [List.getElem?_set, if_neg]
              · exact hb
              · rintro rfl
                rw [hc] at hb
                cases hb }
      · intro r m' h
        simp only [hc] at h
        cases h
        exact ⟨rfl, fun j hj => ⟨.inl rfl, fun h => by
          obtain ⟨b, -, hb⟩ := OpenAt.set_closed h
          exact ⟨b, hb⟩⟩⟩

theorem upvalueAt_moves (g : GoodVM m) (ups : Option (List Nat)) (i : Nat) :
    Shifts m (upvalueAt ups i) S (fun _ p => p = m.ptr) := .read g (upvalueAt_state ups i m) (fun _ _ => rfl)

theorem findOpen_slot {cells : List Cell} {l : List Nat} {k offset i a : Nat}
    (h : findOpen cells l k offset = some (i, a)) : cells[a]? = some (.open offset) := by
  induction l generalizing k with
  | nil => cases h
  | cons b l ih =>
    unfold findOpen at h
    split at h
    · rename_i r hr
      cases h
      exact ih hr
    · split at h
      · rename_i hs
        cases h
        unfold cellSlot at hs
        split at hs
        · rename_i s hs2
          cases hs
          exact hs2
        · cases hs
      · cases h

theorem captureLocal_moves (g : GoodVM m) {offset : Nat} (hS : ∀ j, S j → j ≠ offset) :
    Shifts m (captureLocal offset) S (fun _ p => p = m.ptr) := by
  unfold captureLocal
  cases hf : findOpen m.cells m.openUps 0 offset with
  | some r =>
    refine .read g (by simp only [hf]) (fun _ _ => rfl)
  | none =>
    constructor
    · simp only [hf]
      exact { g with
        cells := fun v hv => by
          rcases List.mem_append.1 hv with hv | hv
          · exact g.cells v hv
          · simp at hv
        clean := fun j hj => by
          rcases g.clean j hj with h | ⟨b, hb⟩
          · exact .inl h
          · refine .inr ⟨b, ?_⟩
            show (m.cells ++ [_])[b]? = _
            rw [List.getElem?_append_left (List.getElem?_eq_some_iff.1 hb).1]
            exact hb }
    · intro r m' h
      simp only [hf] at h
      cases h
      refine ⟨rfl, fun j hj => ⟨.inl rfl, fun ⟨b, hb⟩ => ?_⟩⟩
      have hb : (m.cells ++ [Cell.open offset])[b]? = some (.open j) := hb
      by_cases hlt : b < m.cells.length
      · rw [List.getElem?_append_left hlt] at hb
        exact ⟨b, hb⟩
      · rw [List.getElem?_append_right (by omega)] at hb
        cases hi : b - m.cells.length with
        | zero =>
          rw [hi] at hb
          cases hb
          exact absurd rfl (hS _ hj)
        | succ i => rw [hi] at hb; simp at hb

theorem closeUpvalue_moves (g : GoodVM m) {f : Frame} (i : Nat) (hf : f.stop ≤ m.ptr)
    (hS : ∀ j, S j → f.start + i < f.stop → j ≠ f.start + i) : Shifts m (closeUpvalue f i) S (fun _ p => p = m.ptr) := by
  unfold closeUpvalue
  refine (frameGet_moves g f i).bind fun v m1 g1 h1 => ?_
  obtain ⟨h1, hv, hlt⟩ := h1
  refine (frameSet_moves g1 (v := .null) i trivial (by omega) hS).bind fun _ m2 g2 h2 => ?_
  unfold closeCell
  cases hc : findOpen m2.cells m2.openUps 0 (f.start + i) with
  | none => exact .read g2 (by simp only [hc]) (fun _ _ => by omega)
  | some r =>
    obtain ⟨k, a⟩ := r
    have ha := findOpen_slot hc
    constructor
    · simp only [hc]
      exact { g2 with
        cells := fun u hu => by
          rcases List.mem_or_eq_of_mem_set hu with hu | hu
          · exact g2.cells u hu
          · cases hu; exact hv
        clean := fun j hj => by
          have hj : m2.ptr ≤ j := hj
          rcases g2.clean j hj with h | ⟨b, hb⟩
          · exact .inl h
          · refine .inr ⟨b, ?_⟩
            show (m2.cells.set a (.closed v))[b]? = _
            rw [List.getElem?_set, if_neg]
            · exact hb
            · rintro rfl
              rw [ha] at hb
              cases hb
              omega }
    · intro r m' h
      simp only [hc] at h
      cases h
      refine ⟨by show m2.ptr = m.ptr; omega, fun j hj => ⟨.inl rfl, fun h => ?_⟩⟩
      obtain ⟨b, -, hb⟩ := OpenAt.set_closed h
      exact ⟨b, hb⟩

/-! ### Classes, globals, modules -/

theorem deriveClass_moves (g : GoodVM m) (name : String) (base : Nat) :
    Shifts m (deriveClass name base) S (fun v p => p = m.ptr ∧ GoodValue v) := by
  unfold deriveClass
  cases hb : m.heap.classes[base]? with
  | none => exact ⟨by simp only [hb]; exact g, fun r m' h => by simp only [hb] at h; cases h⟩
  | some b =>
    constructor
    · simp only [hb]
      exact { g with heap := classWithBase_good g.heap name base (List.mem_of_getElem? hb) }
    · intro r m' h
      simp only [hb] at h
      cases h
      exact ⟨⟨rfl, trivial⟩, fun j hj => ⟨.inl rfl, id⟩⟩

theorem inheritClass_moves (g : GoodVM m) (w : World) (name : String) (hS : ∀ j, S j → j + 1 < m.ptr) :
    Shifts m (inheritClass w name) S (fun _ p => p = m.ptr) := by
  unfold inheritClass
  refine (pop_moves g hS).bind fun b m1 g1 h1 => ?_
  refine (asClass_moves g1 b).bind fun c m2 g2 h2 => ?_
  simp only
  split
  · exact .err g2
  · refine (deriveClass_moves g2 name c).bind fun v m3 g3 h3 => ?_
    exact (push_moves g3 h3.2 (fun j hj => by have := hS j hj; omega)).weaken fun _ p h => by omega

theorem storeGlobal_moves (g : GoodVM m) (name : String) (hS : ∀ j, S j → j + 1 < m.ptr) :
    Shifts m (storeGlobal name) S (fun _ p => p + 1 = m.ptr) := by
  unfold storeGlobal
  refine (pop_moves g hS).bind fun v m1 g1 h1 => ?_
  unfold defineGlobal
  cases hc : m1.globals.get name with
  | some _ => exact .read g1 (by simp only [hc]) (fun _ _ => h1.1)
  | none =>
    constructor
    · simp only [hc]
      exact { g1 with globals := g1.globals.insert name h1.2 }
    · intro r m' h
      simp only [hc] at h
      cases h
      exact ⟨h1.1, fun j hj => ⟨.inl rfl, id⟩⟩

theorem loadGlobal_moves (g : GoodVM m) (name : String) (hS : ∀ j, S j → j < m.ptr) :
    Shifts m (loadGlobal name) S (fun _ p => p = m.ptr + 1) := by
  unfold loadGlobal
  refine Shifts.bind (P := fun v p => p = m.ptr ∧ GoodValue v) (.read g (globalValue_state name m) (fun a ha => ?_)) ?_
  · unfold globalValue at ha
    split at ha
    · rename_i v hv
      cases ha
      exact ⟨rfl, g.globals.get hv⟩
    · cases ha
  · intro v m1 g1 h1
    exact (push_moves g1 h1.2 (fun j hj => by have := hS j hj; omega)).weaken fun _ p h => by omega

end

end Dice
