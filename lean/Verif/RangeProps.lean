import Verif.LoopProps

/-!
# Loops over integer ranges
-/

namespace Dice

/-- The integers `a`, `a + 1`, … below `b`. -/
def intsBelow (a b : Int) : List Int := (List.range (b - a).toNat).map fun (k : Nat) => a + (k : Int)

theorem intsBelow_empty {a b : Int} (h : ¬ a < b) : intsBelow a b = [] := by
  unfold intsBelow
  rw [show (b - a).toNat = 0 by omega]
  rfl

theorem intsBelow_cons {a b : Int} (h : a < b) : intsBelow a b = a :: intsBelow (a + 1) b := by
  unfold intsBelow
  rw [show (b - a).toNat = (b - (a + 1)).toNat + 1 by omega, List.range_succ_eq_map, List.map_cons, List.map_map]
  congr 1
  · simp
  · apply List.map_congr_left
    intro k _
    simp only [Function.comp_apply]
    omega

/-- A machine in which the cell `j` holds `v`. -/
def VM.setAt (m : VM) (j : Nat) (v : Value) : VM := { m with mem := upd m.mem j v }

/-- The machine when the body starts: the cell `j` of the loop variable holds `i`. -/
def VM.enter (m : VM) (j : Nat) (i : Int) : VM := (m.setAt j (.int i)).wipe 2

/-- The body `B` run for each of the numbers, with the loop variable in cell `j`.  A round ends by dropping the
value of the body and closing captured variables (`C`).  `m` is the machine between two rounds. -/
inductive ForSpec (B C : VM → Res → VM → Prop) (j : Nat) (last : Int) : List Int → VM → Res → VM → Prop where
  /-- No number is left. -/
  | stop {m : VM} : ForSpec B C j last [] m (.done .normal) (m.enter j last)
  /-- The body runs to its end. -/
  | next {m m1 m2 m' : VM} {i : Int} {is : List Int} {r : Res} (hb : B (m.enter j i) (.done .normal) m1)
      (hc : C ((m1.drop.wipe 2).pushed (.int (i + 1))) (.done .normal) m2) (hr : ForSpec B C j last is m2.drop r m') :
      ForSpec B C j last (i :: is) m r m'
  /-- The body leaves the loop with `break`. -/
  | brk {m m' : VM} {i : Int} {is : List Int} (hb : B (m.enter j i) (.done .brk) m') :
      ForSpec B C j last (i :: is) m (.done .normal) m'
  /-- The body fails, or leaves the function or the enclosing chain. -/
  | leave {m m' : VM} {i : Int} {is : List Int} {r : Res} (hb : B (m.enter j i) r m')
      (hr : r ≠ .done .normal ∧ r ≠ .done .brk) : ForSpec B C j last (i :: is) m r m'

/-- The slot of a variable in a frame, as the instructions address it. -/
def Frame.cell (f : Frame) (slot : Nat) : Nat := f.start + (UInt8.ofNat slot).toNat

section
variable {w : World} {f : Frame} {ups : Option (List Nat)} {m m' : VM} {r : Res}

theorem frameGet_in {s : Nat} (h1 : f.stop ≤ maxStack) (h2 : f.start + s < f.stop) :
    frameGet f s m = (.ok (m.mem (f.start + s)), m) := by
  unfold frameGet
  rw [if_pos ⟨h1, h2⟩]

theorem frameSet_in {s : Nat} {v : Value} (h1 : f.stop ≤ maxStack) (h2 : f.start + s < f.stop) :
    frameSet f s v m = (.ok (), m.setAt (f.start + s) v) := by
  unfold frameSet
  rw [if_pos ⟨h1, h2⟩]
  rfl

/-- Closing captured variables: always possible, and the stack above the frame is not touched. -/
theorem closeCode_runs (vars : List ScopeVar) (h1 : f.stop ≤ maxStack) (h2 : ∀ v ∈ vars, f.cell v.slot < f.stop) (m : VM) :
    ∃ m1, (∀ r m', Runs w f ups (closeCode vars) m r m' ↔ r = .done .normal ∧ m' = m1) ∧ m1.ptr = m.ptr ∧
      ∀ j, f.stop ≤ j → m1.mem j = m.mem j := by
  induction vars generalizing m with
  | nil => exact ⟨m, fun r m' => runs_nop, rfl, fun _ _ => rfl⟩
  | cons v vs ih =>
    obtain ⟨m1, hr, hp, hm⟩ := ih (fun v hv => h2 v (List.mem_cons_of_mem _ hv)) m
    have key : ∃ m2, (∀ r m', Runs w f ups (if v.isCaptured then .num .closeUpvalue v.slot else .nop) m1 r m' ↔
        r = .done .normal ∧ m' = m2) ∧ m2.ptr = m1.ptr ∧ ∀ j, f.stop ≤ j → m2.mem j = m1.mem j := by
      by_cases hc : v.isCaptured = true
      · rw [if_pos hc]
        have hv := h2 v (List.mem_cons_self ..)
        have hclose : ∃ m2, closeUpvalue f (UInt8.ofNat v.slot).toNat m1 = (.ok (), m2) ∧ m2.ptr = m1.ptr ∧
            ∀ j, f.stop ≤ j → m2.mem j = m1.mem j := by
          have e : closeUpvalue f (UInt8.ofNat v.slot).toNat m1 =
              closeCell (f.cell v.slot) (m1.mem (f.cell v.slot)) (m1.setAt (f.cell v.slot) .null) :=
            bind_eq (frameGet_in h1 hv) (bind_eq (frameSet_in h1 hv) rfl)
          have hmem : ∀ j, f.stop ≤ j → (m1.setAt (f.cell v.slot) .null).mem j = m1.mem j := by
            intro j hj
            exact upd_other (show j ≠ f.cell v.slot by omega)
          rw [e]
          unfold closeCell
          split
          · exact ⟨_, rfl, rfl, hmem⟩
          · exact ⟨_, rfl, rfl, hmem⟩
        obtain ⟨m2, e, hp2, hm2⟩ := hclose
        refine ⟨m2, fun r m' => ?_, hp2, hm2⟩
        rw [Code.num]
        exact runs_det fun n => bind_eq (bind_eq (x := operand _ _) rfl (bind_eq e rfl)) rfl
      · rw [if_neg hc]
        exact ⟨m1, fun r m' => runs_nop, rfl, fun _ _ => rfl⟩
    obtain ⟨m2, hr2, hp2, hm2⟩ := key
    refine ⟨m2, fun r m' => ?_, hp2.trans hp, fun j hj => (hm2 j hj).trans (hm j hj)⟩
    rw [closeCode, runs_seq]
    constructor
    · rintro (⟨h, hne⟩ | ⟨m3, h3, h⟩)
      · exact absurd ((hr _ _).1 h).1 hne
      · obtain ⟨-, rfl⟩ := (hr _ _).1 h3
        exact (hr2 _ _).1 h
    · rintro ⟨rfl, rfl⟩
      exact .inr ⟨m1, (hr _ _).2 ⟨rfl, rfl⟩, (hr2 _ _).2 ⟨rfl, rfl⟩⟩

/-- Code with a known effect, then more. -/
theorem runs_known {c : Code} {cs : List Code} {m1 : VM}
    (h : ∀ r m', Runs w f ups c m r m' ↔ r = .done .normal ∧ m' = m1) :
    Runs w f ups (.block (c :: cs)) m r m' ↔ Runs w f ups (.block cs) m1 r m' := by
  rw [runs_block]
  constructor
  · rintro (⟨h', hne⟩ | ⟨m2, h2, h'⟩)
    · exact absurd ((h _ _).1 h').1 hne
    · obtain ⟨-, rfl⟩ := (h _ _).1 h2
      exact h'
  · intro h'
    exact .inr ⟨m1, (h _ _).2 ⟨rfl, rfl⟩, h'⟩


theorem VM.pushed_drop {v : Value} (h : m.Top v) : m.drop.pushed v = m := by
  obtain ⟨h1, h2, h3⟩ := h
  cases m with
  | mk mem ptr cells openUps heap globals modules =>
    simp only at h1 h3
    unfold VM.drop VM.pushed
    simp only [VM.mk.injEq, and_true]
    refine ⟨?_, by omega⟩
    rw [upd_upd, ← h3, upd_self]

theorem VM.setAt_pushed {j : Nat} {u v : Value} (h : j < m.ptr) :
    ((m.wipe 1).setAt j u).pushed v = (m.setAt j u).pushed v := by
  unfold VM.setAt VM.pushed VM.wipe
  simp only [VM.mk.injEq, and_true]
  funext k
  unfold upd memClear
  by_cases h1 : k = m.ptr
  · rw [if_pos h1, if_pos h1]
  · rw [if_neg h1, if_neg h1]
    by_cases h2 : k = j
    · rw [if_pos h2, if_pos h2]
    · rw [if_neg h2, if_neg h2, if_neg (by omega)]

theorem VM.retop_wipe_pushed (u v : Value) : ((m.pushed u).wipe 1).retop v = (m.wipe 2).pushed v := by
  unfold VM.retop VM.pushed VM.wipe
  simp only [Nat.add_sub_cancel, VM.mk.injEq, and_true]
  funext k
  unfold upd memClear
  by_cases h1 : k = m.ptr
  · rw [if_pos h1, if_pos h1]
  · rw [if_neg h1, if_neg h1]
    by_cases h2 : m.ptr + 1 ≤ k ∧ k < m.ptr + 1 + 1
    · rw [if_pos h2, if_pos (by omega)]
    · rw [if_neg h2, if_neg (by omega)]
      exact if_neg h1

theorem VM.top_setAt {j : Nat} {u v : Value} (h : m.Top v) (hj : j + 1 < m.ptr) : (m.setAt j u).Top v :=
  ⟨h.pos, h.max, (upd_other (by have := h.pos; show m.ptr - 1 ≠ j; omega)).trans h.top⟩

/-- What is needed for the rounds: room on the stack, a variable inside the frame, the bound on top. -/
structure RangeAt (f : Frame) (slot : Nat) (b : Int) (m : VM) : Prop where
  stop : f.stop ≤ maxStack
  cell : f.cell slot < f.stop
  above : f.stop < m.ptr
  room : m.ptr + 1 < maxStack
  bound : m.Top (.int b)

theorem runs_storeLocal {slot : Nat} {v : Value} (h1 : f.stop ≤ maxStack) (h2 : f.cell slot < f.stop) (h3 : f.stop ≤ m.ptr)
    (h4 : m.ptr < maxStack) : Runs w f ups (.num .storeLocal slot) (m.pushed v) r m' ↔
      r = .done .normal ∧ m' = (m.setAt (f.cell slot) v).pushed v := by
  have room : ((m.pushed v).drop.setAt (f.cell slot) v).ptr < maxStack := by
    show m.ptr + 1 - 1 < maxStack
    omega
  rw [Code.num, ← VM.setAt_pushed (show f.cell slot < m.ptr by omega), ← VM.drop_pushed m v]
  exact runs_det fun n => bind_eq (bind_eq (pop_top (VM.top_pushed v h4)) (bind_eq (x := operand _ _) rfl
    (bind_eq (frameSet_in h1 h2) (bind_eq (push_room room) rfl)))) rfl

theorem runs_loadLocal {slot : Nat} (h1 : f.stop ≤ maxStack) (h2 : f.cell slot < f.stop) (h4 : m.ptr < maxStack) :
    Runs w f ups (.num .loadLocal slot) m r m' ↔ r = .done .normal ∧ m' = m.pushed (m.mem (f.cell slot)) := by
  rw [Code.num]
  exact runs_det fun n => bind_eq (bind_eq (x := operand _ _) rfl (bind_eq (frameGet_in h1 h2) (bind_eq (push_room h4) rfl))) rfl

theorem runs_dup1 {u v : Value} (h : m.Top u) (room : m.ptr + 1 < maxStack) :
    Runs w f ups (.num .dup 1) (m.pushed v) r m' ↔ r = .done .normal ∧ m' = (m.pushed v).pushed u := by
  have hp : peek 1 (m.pushed v) = (.ok u, m.pushed v) := by
    have := h.pos
    have := h.max
    unfold peek VM.pushed
    simp only
    rw [if_pos (by omega), show m.ptr + 1 - 1 - 1 = m.ptr - 1 by omega, upd_other (by omega), h.top]
  rw [Code.num]
  exact runs_det fun n => bind_eq (bind_eq (x := operand _ _) rfl (bind_eq hp (bind_eq (push_room room) rfl))) rfl

theorem runs_binary {o : Opcode} {u v x : Value} (ho : o = .lessThan ∨ o = .lessThanOrEqual) (room : m.ptr + 1 < maxStack)
    (h : binDecide w o u v = .value x) :
    Runs w f ups (.op o) ((m.pushed u).pushed v) r m' ↔ r = .done .normal ∧ m' = ((m.pushed u).wipe 1).retop x := by
  have key : ∀ call, binaryOp w call o ((m.pushed u).pushed v) = (.ok (), ((m.pushed u).wipe 1).retop x) := by
    intro call
    refine (bind_ok (pop_top (VM.top_pushed v room))).trans ?_
    rw [VM.drop_pushed]
    have top := VM.top_wipe (VM.top_pushed (m := m) u (by omega)) 1
    refine (bind_ok (peek_top top)).trans ?_
    rw [h]
    exact poke_top top
  refine runs_det fun n => ?_
  rcases ho with rfl | rfl <;> exact bind_eq (bind_eq (key _) rfl) rfl

theorem runs_add {u v : Int} (room : m.ptr + 1 < maxStack) (h : InI64 (u + v)) :
    Runs w f ups (.op .add) ((m.pushed (.int u)).pushed (.int v)) r m' ↔
      r = .done .normal ∧ m' = ((m.pushed (.int u)).wipe 1).retop (.int (u + v)) := by
  have key : ∀ call, binaryOp w call .add ((m.pushed (.int u)).pushed (.int v)) =
      (.ok (), ((m.pushed (.int u)).wipe 1).retop (.int (u + v))) := by
    intro call
    refine (bind_ok (pop_top (VM.top_pushed _ room))).trans ?_
    rw [VM.drop_pushed]
    have top := VM.top_wipe (VM.top_pushed (m := m) (.int u) (by omega)) 1
    refine (bind_ok (peek_top top)).trans ?_
    have hi : i64Result w (u + v) = pure (u + v) := by unfold i64Result; rw [if_pos h]
    show (i64Result w (u + v) >>= _) _ = _
    rw [hi]
    exact poke_top top
  exact runs_det fun n => bind_eq (bind_eq (key _) rfl) rfl

/-- The comparison of a range loop. -/
def rangeTest (inclusive : Bool) (i b : Int) : Bool := if inclusive then decide (i ≤ b) else decide (i < b)

theorem range_test {inclusive : Bool} {slot : Nat} {i b : Int} {cs : List Code} (h : RangeAt f slot b m) :
    Runs w f ups (.block (.num .storeLocal slot :: .num .dup 1 ::
      .op (if inclusive then .lessThanOrEqual else .lessThan) :: .breakIf false :: cs)) (m.pushed (.int i)) r m' ↔
      if rangeTest inclusive i b then Runs w f ups (.block cs) (m.enter (f.cell slot) i) r m'
      else r = .done .brk ∧ m' = m.enter (f.cell slot) i := by
  have h1 := h.above
  have h2 := h.room
  have h3 := h.cell
  have top : (m.setAt (f.cell slot) (.int i)).Top (.int b) := VM.top_setAt h.bound (by omega)
  have room : (m.setAt (f.cell slot) (.int i)).ptr + 1 < maxStack := h2
  rw [runs_known (fun r m' => runs_storeLocal h.stop h.cell (by omega) (by omega)), runs_known (fun r m' => runs_dup1 top room),
    runs_known (fun r m' => runs_binary (x := .bool (rangeTest inclusive i b)) (by cases inclusive <;> simp) room
      (by cases inclusive <;> rfl)), runs_block]
  have hd : ((((m.setAt (f.cell slot) (.int i)).pushed (.int i)).wipe 1).retop (.bool (rangeTest inclusive i b))).drop =
      m.enter (f.cell slot) i := VM.wipe_retop_drop _ _ _
  have htop : ((((m.setAt (f.cell slot) (.int i)).pushed (.int i)).wipe 1).retop (.bool (rangeTest inclusive i b))).Top
      (.bool (rangeTest inclusive i b)) := VM.top_nullTest (by omega)
  have hb : ∀ r m', Runs w f ups (.breakIf false)
      ((((m.setAt (f.cell slot) (.int i)).pushed (.int i)).wipe 1).retop (.bool (rangeTest inclusive i b))) r m' ↔
        r = .done (if rangeTest inclusive i b then .normal else .brk) ∧ m' = m.enter (f.cell slot) i := by
    intro r m'
    rw [runs_breakIf, popBool_top htop, hd]
    constructor
    · rintro (⟨h', -⟩ | ⟨x', m1, h', rfl, rfl⟩)
      · cases h'
      · cases h'
        refine ⟨?_, rfl⟩
        cases rangeTest inclusive i b <;> rfl
    · rintro ⟨rfl, rfl⟩
      refine .inr ⟨_, _, rfl, ?_, rfl⟩
      cases rangeTest inclusive i b <;> rfl
  by_cases ht : rangeTest inclusive i b = true
  · rw [if_pos ht]
    rw [if_pos ht] at hb
    constructor
    · rintro (⟨h, hr⟩ | ⟨m1, h1, h⟩)
      · exact absurd ((hb _ _).1 h).1 hr
      · obtain ⟨-, rfl⟩ := (hb _ _).1 h1
        exact h
    · intro h
      exact .inr ⟨_, (hb _ _).2 ⟨rfl, rfl⟩, h⟩
  · rw [if_neg ht]
    rw [if_neg ht] at hb
    constructor
    · rintro (⟨h, hr⟩ | ⟨m1, h1, h⟩)
      · exact (hb _ _).1 h
      · cases ((hb _ _).1 h1).1
    · rintro ⟨rfl, rfl⟩
      exact .inl ⟨(hb _ _).2 ⟨rfl, rfl⟩, by simp⟩

/-- A body `B` that leaves one value, never says `continue`, and keeps the loop variable (cell `j`) and the bound,
when started in a round: with something on the stack above the frame and the variable set.  `C` ends a round, and
`I` is what holds of the machine between rounds. -/
structure KeepsRange (f : Frame) (B C : VM → Res → VM → Prop) (j : Nat) (I : VM → Prop) : Prop where
  ptr : ∀ {m m' i}, I m → f.stop < m.ptr → B (m.enter j i) (.done .normal) m' → m'.ptr = m.ptr + 1
  var : ∀ {m m' i}, I m → f.stop < m.ptr → B (m.enter j i) (.done .normal) m' → m'.mem j = .int i
  bound : ∀ {m m' i}, I m → f.stop < m.ptr → B (m.enter j i) (.done .normal) m' → m'.mem (m.ptr - 1) = m.mem (m.ptr - 1)
  cont : ∀ {m m' i}, I m → f.stop < m.ptr → ¬ B (m.enter j i) (.done .cont) m'
  next : ∀ {m m1 m2 i}, I m → f.stop < m.ptr → B (m.enter j i) (.done .normal) m1 →
    C ((m1.drop.wipe 2).pushed (.int (i + 1))) (.done .normal) m2 → I m2.drop

theorem range_next {slot : Nat} {i : Int} {vars : List ScopeVar} {m1 : VM} (h1 : f.stop ≤ maxStack) (h2 : f.cell slot < f.stop)
    (h3 : f.stop < m1.ptr) (h4 : m1.ptr < maxStack) (hv : m1.mem (f.cell slot) = .int i) (hi : InI64 (i + 1)) :
    Runs w f ups (.block [.op .pop, .num .loadLocal slot, .op .pushI1, .op .add, closeCode vars]) m1 r m' ↔
      Runs w f ups (closeCode vars) ((m1.drop.wipe 2).pushed (.int (i + 1))) r m' := by
  have top : m1.Top (m1.mem (m1.ptr - 1)) := ⟨by omega, by omega, rfl⟩
  have hp : ∀ r m', Runs w f ups (.op .pop) m1 r m' ↔ r = .done .normal ∧ m' = m1.drop := fun r m' => by
    rw [Code.op]
    exact runs_det fun n => bind_eq (bind_eq (pop_top top) rfl) rfl
  have room : m1.drop.ptr + 1 < maxStack := by show m1.ptr - 1 + 1 < maxStack; omega
  have hl : m1.drop.mem (f.cell slot) = .int i := (upd_other (by omega)).trans hv
  have h1' : ∀ r m', Runs w f ups (.op .pushI1) (m1.drop.pushed (.int i)) r m' ↔
      r = .done .normal ∧ m' = (m1.drop.pushed (.int i)).pushed (.int 1) := fun r m' => by
    rw [Code.op]
    exact runs_det fun n => bind_eq (bind_eq (push_room room) rfl) rfl
  rw [runs_known hp, runs_known (fun r m' => runs_loadLocal h1 h2 (by omega)), hl, runs_known h1',
    runs_known (fun r m' => runs_add room hi), runs_block1, VM.retop_wipe_pushed]

theorem rounds_iff {A : VM → Res → VM → Prop} {m m' : VM} {r : Res} : Rounds A m r m' ↔
    (∃ s m1, (s = .normal ∨ s = .cont) ∧ A m (.done s) m1 ∧ Rounds A m1 r m') ∨ (r = .done .normal ∧ A m (.done .brk) m') ∨
      ((r ≠ .done .normal ∧ r ≠ .done .cont ∧ r ≠ .done .brk) ∧ A m r m') := by
  constructor
  · intro h
    cases h with
    | next hs h hr => exact .inl ⟨_, _, hs, h, hr⟩
    | brk h => exact .inr (.inl ⟨rfl, h⟩)
    | leave hr h => exact .inr (.inr ⟨hr, h⟩)
  · rintro (⟨s, m1, hs, h, hr⟩ | ⟨rfl, h⟩ | ⟨hr, h⟩)
    · exact .next hs h hr
    · exact .brk h
    · exact .leave hr h

/-- The first number that is not in the range. -/
def rangeEnd (inclusive : Bool) (b : Int) : Int := if inclusive then b + 1 else b

theorem rangeTest_iff (inclusive : Bool) (i b : Int) : rangeTest inclusive i b = true ↔ i < rangeEnd inclusive b := by
  cases inclusive
  · simp [rangeTest, rangeEnd]
  · simp only [rangeTest, rangeEnd, if_true, decide_eq_true_eq]; omega

theorem range_code {inclusive : Bool} {slot : Nat} {a b : Int} {c3 : Code} {vars : List ScopeVar}
    (h : RangeAt f slot b m) (hv : ∀ v ∈ vars, f.cell v.slot < f.stop) {I : VM → Prop}
    (hk : KeepsRange f (Runs w f ups c3) (Runs w f ups (closeCode vars)) (f.cell slot) I) (hI : I m)
    (ha : InI64 a) (hb : InI64 (rangeEnd inclusive b)) :
    Runs w f ups (.loop (.block [.num .storeLocal slot, .num .dup 1,
      .op (if inclusive then .lessThanOrEqual else .lessThan), .breakIf false, c3, .op .pop,
      .num .loadLocal slot, .op .pushI1, .op .add, closeCode vars])) (m.pushed (.int a)) r m' ↔
      ForSpec (Runs w f ups c3) (Runs w f ups (closeCode vars)) (f.cell slot) (max a (rangeEnd inclusive b))
        (intsBelow a (rangeEnd inclusive b)) m r m' := by
  rw [runs_loop]
  generalize hl : max a (rangeEnd inclusive b) = last
  generalize hn : (rangeEnd inclusive b - a).toNat = n
  induction n generalizing a m with
  | zero =>
    have ht : ¬ a < rangeEnd inclusive b := by omega
    rw [rounds_iff, intsBelow_empty ht]
    simp only [range_test h, if_neg (mt (rangeTest_iff inclusive a b).1 ht)]
    have hl : last = a := by omega
    subst hl
    constructor
    · rintro (⟨s, m1, hs, ⟨hx, -⟩, -⟩ | ⟨rfl, -, rfl⟩ | ⟨hr, rfl, -⟩)
      · rcases hs with rfl | rfl <;> cases hx
      · exact .stop
      · exact absurd rfl hr.2.2
    · intro h
      cases h
      exact .inr (.inl ⟨rfl, by simp⟩)
  | succ n ih =>
    have ht : a < rangeEnd inclusive b := by omega
    have hi : InI64 (a + 1) := by unfold InI64 at *; omega
    have h1 := h.above
    have h2 := h.room
    have h3 := h.cell
    -- what follows the body
    have after : ∀ {m1 : VM}, Runs w f ups c3 (m.enter (f.cell slot) a) (.done .normal) m1 →
        ∃ m2, (∀ r m', Runs w f ups (.block [.op .pop, .num .loadLocal slot, .op .pushI1, .op .add, closeCode vars]) m1 r m' ↔
            r = .done .normal ∧ m' = m2) ∧
          (∀ r m', Runs w f ups (closeCode vars) ((m1.drop.wipe 2).pushed (.int (a + 1))) r m' ↔ r = .done .normal ∧ m' = m2) ∧
          m2 = m2.drop.pushed (.int (a + 1)) ∧ RangeAt f slot b m2.drop ∧ I m2.drop := by
      intro m1 hb1
      have hp : m1.ptr = m.ptr + 1 := hk.ptr hI h1 hb1
      have hvar : m1.mem (f.cell slot) = .int a := hk.var hI h1 hb1
      have hbd : m1.mem (m.ptr - 1) = .int b := (hk.bound hI h1 hb1).trans h.bound.top
      obtain ⟨m2, hc, hp2, hm2⟩ := closeCode_runs (w := w) (ups := ups) vars h.stop hv ((m1.drop.wipe 2).pushed (.int (a + 1)))
      have hp2 : m2.ptr = m.ptr + 1 := by
        rw [hp2]
        show m1.ptr - 1 + 1 = _
        omega
      have htop : m2.Top (.int (a + 1)) := by
        refine ⟨by omega, by omega, ?_⟩
        rw [hm2 _ (by omega), hp2]
        show upd _ (m1.ptr - 1) _ (m.ptr + 1 - 1) = _
        rw [show m.ptr + 1 - 1 = m1.ptr - 1 by omega, upd_same]
      refine ⟨m2, fun r m' => ?_, hc, (VM.pushed_drop htop).symm, ⟨h.stop, h.cell, ?_, ?_, ?_⟩,
        hk.next hI h1 hb1 ((hc _ _).2 ⟨rfl, rfl⟩)⟩
      · rw [range_next h.stop h.cell (by omega) (by omega) hvar hi]
        exact hc r m'
      · show f.stop < m2.ptr - 1
        omega
      · show m2.ptr - 1 + 1 < maxStack
        omega
      · refine ⟨?_, ?_, ?_⟩
        · show 0 < m2.ptr - 1
          omega
        · show m2.ptr - 1 ≤ maxStack
          omega
        · show upd m2.mem (m2.ptr - 1) _ (m2.ptr - 1 - 1) = _
          rw [upd_other (by omega), hm2 _ (by omega)]
          show upd (memClear (upd m1.mem (m1.ptr - 1) .null) (m1.ptr - 1) (m1.ptr - 1 + 2)) (m1.ptr - 1) _ (m2.ptr - 1 - 1) = _
          rw [upd_other (by omega)]
          unfold memClear
          rw [if_neg (by omega), upd_other (by omega), show m2.ptr - 1 - 1 = m.ptr - 1 by omega, hbd]
    rw [rounds_iff, intsBelow_cons ht]
    simp only [range_test h, if_pos ((rangeTest_iff inclusive a b).2 ht)]
    constructor
    · rintro (⟨s, m1, hs, hx, hr⟩ | ⟨rfl, hx⟩ | ⟨hr, hx⟩)
      · rcases runs_block.1 hx with ⟨hx, hne⟩ | ⟨m2, hb1, hx⟩
        · rcases hs with rfl | rfl
          · exact absurd rfl hne
          · exact absurd hx (hk.cont hI h1)
        · obtain ⟨m3, e1, e2, e3, hR⟩ := after hb1
          obtain ⟨-, rfl⟩ := (e1 _ _).1 hx
          rw [e3] at hr
          exact .next hb1 ((e2 _ _).2 ⟨rfl, rfl⟩) ((ih hR.1 hR.2 hi (by omega) (by omega)).1 hr)
      · rcases runs_block.1 hx with ⟨hx, hne⟩ | ⟨m2, hb1, hx⟩
        · exact .brk hx
        · obtain ⟨m3, e1, e2, e3, hR⟩ := after hb1
          cases ((e1 _ _).1 hx).1
      · rcases runs_block.1 hx with ⟨hx, hne⟩ | ⟨m2, hb1, hx⟩
        · exact .leave hx ⟨hr.1, hr.2.2⟩
        · obtain ⟨m3, e1, e2, e3, hR⟩ := after hb1
          exact absurd ((e1 _ _).1 hx).1 hr.1
    · intro hf
      cases hf with
      | @next _ m1 m2 _ _ _ _ hb1 hc hr =>
        obtain ⟨m3, e1, e2, e3, hR⟩ := after hb1
        obtain ⟨-, rfl⟩ := (e2 _ _).1 hc
        refine .inl ⟨.normal, m2, .inl rfl, runs_block.2 (.inr ⟨m1, hb1, (e1 _ _).2 ⟨rfl, rfl⟩⟩), ?_⟩
        rw [e3]
        exact (ih hR.1 hR.2 hi (by omega) (by omega)).2 hr
      | brk hb1 => exact .inr (.inl ⟨rfl, runs_block.2 (.inl ⟨hb1, by simp⟩)⟩)
      | leave hb1 hr =>
        refine .inr (.inr ⟨⟨hr.1, ?_, hr.2⟩, runs_block.2 (.inl ⟨hb1, hr.1⟩)⟩)
        intro he
        subst he
        exact hk.cont hI h1 hb1

end

/-- If the body always ends, so does the loop. -/
theorem ForSpec.total {B C : VM → Res → VM → Prop} {j : Nat} {last : Int} (hB : ∀ m, ∃ r m', B m r m')
    (hC : ∀ m, ∃ m', C m (.done .normal) m') (is : List Int) (m : VM) : ∃ r m', ForSpec B C j last is m r m' := by
  induction is generalizing m with
  | nil => exact ⟨_, _, .stop⟩
  | cons i is ih =>
    obtain ⟨r, m1, hb⟩ := hB (m.enter j i)
    by_cases hn : r = .done .normal
    · subst hn
      obtain ⟨m2, hc⟩ := hC ((m1.drop.wipe 2).pushed (.int (i + 1)))
      obtain ⟨r, m', hr⟩ := ih m2.drop
      exact ⟨r, m', .next hb hc hr⟩
    · by_cases hk : r = .done .brk
      · subst hk
        exact ⟨_, _, .brk hb⟩
      · exact ⟨_, _, .leave hb ⟨hn, hk⟩⟩

/-- What remains of a loop: the bound is dropped and the loop yields unit. -/
inductive DropsBound (L : Res → VM → Prop) : Res → VM → Prop where
  | unit {m1 : VM} {v : Value} (h : L (.done .normal) m1) (hv : m1.Top v) : DropsBound L (.done .normal) (m1.drop.pushed .unit)
  | left {m' : VM} {r : Res} (h : L r m') (hr : r ≠ .done .normal) : DropsBound L r m'

/-- The code of a loop over an integer range, once its bounds are computed. -/
theorem range_runs {w : World} {f : Frame} {ups : Option (List Nat)} {op : BinaryOp} {c1 c2 c3 : Code} {slot : Nat} {vars : List ScopeVar}
    {m m1 m2 m' : VM} {r : Res} {i j : Int} {I : VM → Prop} (hq : r.Quiet) (hb : Runs w f ups c1 m (.done .normal) m1)
    (ha : Runs w f ups c2 m1 (.done .normal) m2) (hi : m2.Top (.int i)) (hR : RangeAt f slot j m2.drop)
    (hv : ∀ v ∈ vars, f.cell v.slot < f.stop)
    (hk : KeepsRange f (Runs w f ups c3) (Runs w f ups (closeCode vars)) (f.cell slot) I) (hm : I m2.drop) (hI : InI64 i)
    (hJ : InI64 (rangeEnd (op = .rangeInclusive) j)) :
    Runs w f ups (.block [c1, c2, .loop (.block [.num .storeLocal slot, .num .dup 1,
        .op (if op = .rangeInclusive then .lessThanOrEqual else .lessThan), .breakIf false, c3, .op .pop,
        .num .loadLocal slot, .op .pushI1, .op .add, closeCode vars]), .op .pop, .op .pushUnit]) m r m' ↔
      DropsBound (ForSpec (Runs w f ups c3) (Runs w f ups (closeCode vars)) (f.cell slot)
        (max i (rangeEnd (op = .rangeInclusive) j)) (intsBelow i (rangeEnd (op = .rangeInclusive) j)) m2.drop) r m' := by
  have key := fun r m' => range_code (w := w) (ups := ups) (inclusive := decide (op = .rangeInclusive)) (r := r) (m' := m') hR hv hk hm hI hJ
  simp only [VM.pushed_drop hi, decide_eq_true_eq] at key
  rw [runs_block]
  have first : Then (Runs w f ups c1) (Runs w f ups (.block [c2, .loop (.block [.num .storeLocal slot, .num .dup 1,
          .op (if op = .rangeInclusive then .lessThanOrEqual else .lessThan), .breakIf false, c3, .op .pop,
          .num .loadLocal slot, .op .pushI1, .op .add, closeCode vars]), .op .pop, .op .pushUnit])) m r m' ↔
      Runs w f ups (.block [.loop (.block [.num .storeLocal slot, .num .dup 1,
          .op (if op = .rangeInclusive then .lessThanOrEqual else .lessThan), .breakIf false, c3, .op .pop,
          .num .loadLocal slot, .op .pushI1, .op .add, closeCode vars]), .op .pop, .op .pushUnit]) m2 r m' := by
    constructor
    · rintro (⟨h, hr⟩ | ⟨m3, h, h'⟩)
      · exact absurd (h.det hb).1 hr
      · obtain ⟨-, rfl⟩ := h.det hb
        rcases runs_block.1 h' with ⟨h, hr⟩ | ⟨m3, h, h'⟩
        · exact absurd (h.det ha).1 hr
        · obtain ⟨-, rfl⟩ := h.det ha
          exact h'
    · intro h
      exact then_right hb (runs_block.2 (then_right ha h))
  rw [first, runs_block]
  constructor
  · rintro (⟨h, hr⟩ | ⟨m3, h, h'⟩)
    · exact .left ((key _ _).1 h) hr
    · rcases runs_block.1 h' with ⟨h', hr⟩ | ⟨m4, h4, h'⟩
      · obtain ⟨-, rfl, -⟩ := (runs_pop hq).1 h'
        exact absurd rfl hr
      · obtain ⟨⟨v, hv⟩, -, rfl⟩ := (runs_pop (Res.quiet_done _)).1 h4
        obtain ⟨-, rfl, rfl⟩ := (runs_pushUnit hq).1 (runs_block1.1 h')
        exact .unit ((key _ _).1 h) hv
  · intro hd
    cases hd with
    | unit h hv =>
      refine .inr ⟨_, (key _ _).2 h, runs_block.2 (then_right ((runs_pop (Res.quiet_done _)).2 ⟨⟨_, hv⟩, rfl, rfl⟩)
        (runs_block1.2 ((runs_pushUnit hq).2 ⟨?_, rfl, rfl⟩)))⟩
      have h1 := hv.pos
      have h2 := hv.max
      rename_i m3 v
      show m3.ptr - 1 < maxStack
      omega
    | left h hr => exact .inl ⟨(key _ _).2 h, hr⟩

/-- **C23.**  A loop over an integer range.  Once the bounds are computed (the end `b` first, then the start `a`), the
body is run for the numbers of `intsBelow a b` (`intsBelow a (b + 1)` for an inclusive range) in order, with the loop
variable set to each of them, until the list is exhausted or the body leaves the loop.

Assumed: the body leaves the loop variable and the bound on the stack alone (`KeepsRange`), the frame is large enough,
there is room on the stack, and the end of an inclusive range is not the largest integer. -/
theorem range_loop_visits_partial {g g' : Env} {x : String} {op : BinaryOp} {a b body : Expr} {c : Code}
    (h : Gen g (.expr (.forLoop x (.binary op a b) body)) c g') (hop : op = .rangeInclusive ∨ op = .rangeExclusive) :
    ∃ ca cb cc slot vars, (∃ g1 g2, Gen g1 (.expr a) ca g2) ∧ (∃ g1 g2, Gen g1 (.expr b) cb g2) ∧ (∃ g1 g2, Gen g1 (.expr body) cc g2) ∧
      ∀ {w : World} {f : Frame} {ups : Option (List Nat)} {m m1 m2 m' : VM} {r : Res} {i j : Int} {I : VM → Prop}, r.Quiet →
        Runs w f ups cb m (.done .normal) m1 → Runs w f ups ca m1 (.done .normal) m2 →
        m2.Top (.int i) → RangeAt f slot j m2.drop → (∀ v ∈ vars, f.cell v.slot < f.stop) →
        KeepsRange f (Runs w f ups cc) (Runs w f ups (closeCode vars)) (f.cell slot) I → I m2.drop → InI64 i → InI64 (rangeEnd (op = .rangeInclusive) j) →
        (Runs w f ups c m r m' ↔
          DropsBound (ForSpec (Runs w f ups cc) (Runs w f ups (closeCode vars)) (f.cell slot)
            (max i (rangeEnd (op = .rangeInclusive) j)) (intsBelow i (rangeEnd (op = .rangeInclusive) j)) m2.drop) r m') := by
  cases h with
  | chain he => cases he
  | forLoop hns => rcases hop with rfl | rfl <;> exact absurd rfl (by first | exact (hns a b).1 | exact (hns a b).2)
  | @rangeLoop _ _ _ _ _ _ _ _ _ _ _ _ c1 c2 c3 slot vars _ h1 h2 _ _ h3 =>
    refine ⟨c2, c1, c3, slot, vars, ⟨_, _, h2⟩, ⟨_, _, h1⟩, ⟨_, _, h3⟩, ?_⟩
    intro w f ups m m1 m2 m' r i j I hq hb ha hi hR hv hk hm hI hJ
    exact range_runs hq hb ha hi hR hv hk hm hI hJ

theorem VM.enter_var {m : VM} {j : Nat} {i : Int} (h : j < m.ptr) : (m.enter j i).mem j = .int i := by
  unfold VM.enter VM.wipe VM.setAt memClear
  simp only
  rw [if_neg (by omega), upd_same]

theorem VM.enter_below {m : VM} {j k : Nat} {i : Int} (h : k < m.ptr) (hk : k ≠ j) : (m.enter j i).mem k = m.mem k := by
  unfold VM.enter VM.wipe VM.setAt memClear
  simp only
  rw [if_neg (by omega), upd_other hk]

/-- A body that gives `()` and does nothing else meets the assumption on bodies. -/
theorem unit_keepsRange (w : World) {f : Frame} (ups : Option (List Nat)) {slot : Nat} (hj : f.cell slot < f.stop)
    (C : VM → Res → VM → Prop) : KeepsRange f (Runs w f ups (.op .pushUnit)) C (f.cell slot) fun _ => True where
  ptr _ _ h := by obtain ⟨-, -, rfl⟩ := (runs_pushUnit (Res.quiet_done _)).1 h; rfl
  var {m m' i} _ hm h := by
    obtain ⟨-, -, rfl⟩ := (runs_pushUnit (Res.quiet_done _)).1 h
    exact (upd_other (show f.cell slot ≠ m.ptr by omega)).trans (VM.enter_var (by omega))
  bound {m m' i} _ hm h := by
    obtain ⟨-, -, rfl⟩ := (runs_pushUnit (Res.quiet_done _)).1 h
    exact (upd_other (show m.ptr - 1 ≠ m.ptr by omega)).trans (VM.enter_below (by omega) (by omega))
  cont _ _ h := by cases ((runs_pushUnit (Res.quiet_done _)).1 h).2.1
  next _ _ _ _ := trivial

/-- `0..3` -/
example : intsBelow 0 3 = [0, 1, 2] := rfl

end Dice
