import Verif.BigStep
import Verif.Gen

/-!
# Big steps of single instructions

What single instructions do, for runs that do not end in a panic (a stack overflow is a panic).
-/

namespace Dice

/-- Not a panic. -/
def Res.Quiet (r : Res) : Prop := ∀ s, r ≠ .panic s

/-- `v` is on top of the stack. -/
structure VM.Top (m : VM) (v : Value) : Prop where
  pos : 0 < m.ptr
  max : m.ptr ≤ maxStack
  top : m.mem (m.ptr - 1) = v

/-- The machine without the value on top. -/
def VM.drop (m : VM) : VM := { m with mem := upd m.mem (m.ptr - 1) .null, ptr := m.ptr - 1 }

/-- The machine with one more value. -/
def VM.pushed (m : VM) (v : Value) : VM := { m with mem := upd m.mem m.ptr v, ptr := m.ptr + 1 }

/-- The machine with another value on top. -/
def VM.retop (m : VM) (v : Value) : VM := { m with mem := upd m.mem (m.ptr - 1) v }

/-- The machine with `n` cells above the top of the stack overwritten by null: what is left when `n` more
values were pushed and dropped again. -/
def VM.wipe (m : VM) (n : Nat) : VM := { m with mem := memClear m.mem m.ptr (m.ptr + n) }

theorem VM.Top.unique {m : VM} {v v' : Value} (h : m.Top v) (h' : m.Top v') : v = v' := h.top.symm.trans h'.top

theorem VM.top_pushed {m : VM} (v : Value) (h : m.ptr < maxStack) : (m.pushed v).Top v :=
  ⟨Nat.succ_pos _, h, by show upd m.mem m.ptr v (m.ptr + 1 - 1) = v; rw [Nat.add_sub_cancel]; exact upd_same _ _ _⟩

theorem VM.top_retop {m : VM} {u v : Value} (h : m.Top u) : (m.retop v).Top v :=
  ⟨h.pos, h.max, upd_same _ _ _⟩

theorem VM.retop_pushed (m : VM) (u v : Value) : (m.pushed u).retop v = m.pushed v := by
  unfold VM.retop VM.pushed
  simp only [Nat.add_sub_cancel, VM.mk.injEq, and_self, and_true]
  funext j
  unfold upd
  by_cases h : j = m.ptr
  · rw [if_pos h, if_pos h]
  · rw [if_neg h, if_neg h, if_neg h]

theorem VM.drop_pushed (m : VM) (v : Value) : (m.pushed v).drop = m.wipe 1 := by
  unfold VM.drop VM.pushed VM.wipe
  simp only [Nat.add_sub_cancel, VM.mk.injEq, and_self, and_true]
  funext j
  unfold upd memClear
  by_cases h : j = m.ptr
  · rw [if_pos h, if_pos (by omega)]
  · rw [if_neg h, if_neg h, if_neg (by omega)]

theorem VM.drop_wipe (m : VM) (v : Value) (n : Nat) : ((m.pushed v).wipe n).drop = m.wipe (n + 1) := by
  unfold VM.drop VM.pushed VM.wipe
  simp only [Nat.add_sub_cancel, VM.mk.injEq, and_self, and_true]
  funext j
  unfold upd memClear
  by_cases h : j = m.ptr
  · rw [if_pos h, if_pos (by omega)]
  · rw [if_neg h]
    by_cases h2 : m.ptr + 1 ≤ j ∧ j < m.ptr + 1 + n
    · rw [if_pos h2, if_pos (by omega)]
    · rw [if_neg h2, if_neg (by omega)]
      exact if_neg h

theorem VM.top_wipe {m : VM} {v : Value} (h : m.Top v) (n : Nat) : (m.wipe n).Top v := by
  refine ⟨h.pos, h.max, ?_⟩
  show memClear m.mem m.ptr (m.ptr + n) (m.ptr - 1) = v
  have := h.pos
  unfold memClear
  rw [if_neg (by omega)]
  exact h.top

section
variable {w : World} {f : Frame} {ups : Option (List Nat)} {m m' : VM} {r : Res}

/-- An instruction whose effect is known for all budgets. -/
theorem runs_det {i : Instr} {s : Sig} {m1 : VM} (h : ∀ n, istep w n f ups i m = (.ok s, m1)) :
    Runs w f ups (.instr i) m r m' ↔ r = .done s ∧ m' = m1 := by
  rw [runs_instr]
  constructor
  · rintro ⟨n, ⟨h1, -⟩ | ⟨s', h1, rfl⟩⟩
    · rw [h n] at h1; cases h1
    · rw [h n] at h1; cases h1; exact ⟨rfl, rfl⟩
  · rintro ⟨rfl, rfl⟩
    exact ⟨0, .inr ⟨s, h 0, rfl⟩⟩

theorem runs_det_err {i : Instr} {e : RtErr} {m1 : VM} (h : ∀ n, istep w n f ups i m = (.err e, m1)) :
    Runs w f ups (.instr i) m r m' ↔ r = .err e ∧ m' = m1 := by
  rw [runs_instr]
  constructor
  · rintro ⟨n, ⟨h1, h2⟩ | ⟨s', h1, rfl⟩⟩
    · rw [h n] at h1 h2; cases h1; exact ⟨rfl, h2.symm⟩
    · rw [h n] at h1; cases h1
  · rintro ⟨rfl, rfl⟩
    exact ⟨0, .inl ⟨by rw [h 0]; rfl, by rw [h 0]⟩⟩

theorem runs_det_panic {i : Instr} {s : String} {m1 : VM} (h : ∀ n, istep w n f ups i m = (.panic s, m1)) :
    Runs w f ups (.instr i) m r m' ↔ r = .panic s ∧ m' = m1 := by
  rw [runs_instr]
  constructor
  · rintro ⟨n, ⟨h1, h2⟩ | ⟨s', h1, rfl⟩⟩
    · rw [h n] at h1 h2; cases h1; exact ⟨rfl, h2.symm⟩
    · rw [h n] at h1; cases h1
  · rintro ⟨rfl, rfl⟩
    exact ⟨0, .inl ⟨by rw [h 0]; rfl, by rw [h 0]⟩⟩

theorem peek0 (m : VM) : peek 0 m = if 0 < m.ptr ∧ m.ptr ≤ maxStack then (.ok (m.mem (m.ptr - 1)), m)
    else (.panic "index out of bounds", m) := by
  unfold peek
  by_cases h : 0 < m.ptr ∧ m.ptr ≤ maxStack
  · rw [if_pos h, if_pos (by omega)]; rfl
  · rw [if_neg h, if_neg (by omega)]

theorem peek_top {v : Value} (h : m.Top v) : peek 0 m = (.ok v, m) := by
  rw [peek0, if_pos ⟨h.pos, h.max⟩, h.top]

theorem poke_top {u v : Value} (h : m.Top u) : poke 0 v m = (.ok (), m.retop v) := by
  unfold poke
  have := h.pos
  have := h.max
  rw [if_pos (by omega)]
  rfl

theorem pop_top {v : Value} (h : m.Top v) : pop m = (.ok v, m.drop) := by
  unfold pop
  have := h.pos
  have := h.max
  rw [if_neg (by omega), h.top]
  rfl

theorem push_room {v : Value} (h : m.ptr < maxStack) : push v m = (.ok (), m.pushed v) := by
  unfold push
  rw [if_pos h]
  rfl

/-- Either there is a value on top, or the stack is empty or beyond its bound. -/
theorem top_or (m : VM) : (∃ v, m.Top v) ∨ (m.ptr = 0 ∨ maxStack < m.ptr) := by
  by_cases h : m.ptr = 0 ∨ maxStack < m.ptr
  · exact .inr h
  · exact .inl ⟨_, by omega, by omega, rfl⟩

theorem peek_no (h : m.ptr = 0 ∨ maxStack < m.ptr) : peek 0 m = (.panic "index out of bounds", m) := by
  rw [peek0, if_neg (by omega)]

theorem pop_no (h : m.ptr = 0 ∨ maxStack < m.ptr) : pop m = (.panic "index out of bounds", m) := by
  unfold pop
  rw [if_pos h]

theorem bind_eq {α β : Type} {x : V α} {k : α → V β} {a : α} {m m1 : VM} {q : Outcome β × VM} (h : x m = (.ok a, m1))
    (h2 : k a m1 = q) : (x >>= k) m = q := (bind_ok h).trans h2

/-- A push. -/
theorem push_runs {o : Opcode} {v : Value} (hs : ∀ k, step w k (Instr.op o).operands f ups o 0 =
    (do push v; pure (.goto 0))) (hq : r.Quiet) :
    Runs w f ups (.op o) m r m' ↔ m.ptr < maxStack ∧ r = .done .normal ∧ m' = m.pushed v := by
  by_cases h : m.ptr < maxStack
  · rw [Code.op, runs_det (s := .normal) (m1 := m.pushed v)]
    · simp [h]
    · intro n
      show (step w _ _ f ups o 0 >>= _) m = _
      rw [hs]
      exact bind_eq (bind_eq (push_room h) rfl) rfl
  · rw [Code.op, runs_det_panic (s := "index out of bounds") (m1 := m)]
    · exact ⟨fun h => absurd h.1 (hq _), fun h' => absurd h'.1 h⟩
    · intro n
      show (step w _ _ f ups o 0 >>= _) m = _
      rw [hs]
      refine bind_panic (bind_panic ?_)
      unfold push
      rw [if_neg h]

theorem runs_pushUnit (hq : r.Quiet) :
    Runs w f ups (.op .pushUnit) m r m' ↔ m.ptr < maxStack ∧ r = .done .normal ∧ m' = m.pushed .unit :=
  push_runs (fun _ => rfl) hq

theorem runs_pushNull (hq : r.Quiet) :
    Runs w f ups (.op .pushNull) m r m' ↔ m.ptr < maxStack ∧ r = .done .normal ∧ m' = m.pushed .null :=
  push_runs (fun _ => rfl) hq

theorem runs_pushI1 (hq : r.Quiet) :
    Runs w f ups (.op .pushI1) m r m' ↔ m.ptr < maxStack ∧ r = .done .normal ∧ m' = m.pushed (.int 1) :=
  push_runs (fun _ => rfl) hq

theorem runs_pop (hq : r.Quiet) :
    Runs w f ups (.op .pop) m r m' ↔ (∃ v, m.Top v) ∧ r = .done .normal ∧ m' = m.drop := by
  rcases top_or m with ⟨v, h⟩ | h
  · rw [Code.op, runs_det (s := .normal) (m1 := m.drop)]
    · simp only [show (∃ v, m.Top v) from ⟨v, h⟩, true_and]
    · intro n
      exact bind_eq (bind_eq (pop_top h) rfl) rfl
  · rw [Code.op, runs_det_panic (s := "index out of bounds") (m1 := m)]
    · refine ⟨fun h => absurd h.1 (hq _), fun h' => ?_⟩
      obtain ⟨⟨v, hv⟩, -⟩ := h'
      have := hv.pos
      have := hv.max
      omega
    · intro n
      exact bind_panic (bind_panic (pop_no h))

theorem runs_dup0 (hq : r.Quiet) :
    Runs w f ups (.num .dup 0) m r m' ↔ m.ptr < maxStack ∧ ∃ v, m.Top v ∧ r = .done .normal ∧ m' = m.pushed v := by
  rcases top_or m with ⟨v, h⟩ | h
  · by_cases hr : m.ptr < maxStack
    · rw [Code.num, runs_det (s := .normal) (m1 := m.pushed v)]
      · constructor
        · rintro ⟨rfl, rfl⟩; exact ⟨hr, v, h, rfl, rfl⟩
        · rintro ⟨-, v', h', rfl, rfl⟩; cases h.unique h'; exact ⟨rfl, rfl⟩
      · intro n
        exact bind_eq (bind_eq (x := operand _ _) rfl (bind_eq (peek_top h) (bind_eq (push_room hr) rfl))) rfl
    · rw [Code.num, runs_det_panic (s := "index out of bounds") (m1 := m)]
      · exact ⟨fun h => absurd h.1 (hq _), fun h' => absurd h'.1 hr⟩
      · intro n
        refine bind_panic (bind_eq (x := operand _ _) rfl (bind_eq (peek_top h) (bind_panic ?_)))
        unfold push
        rw [if_neg hr]
  · rw [Code.num, runs_det_panic (s := "index out of bounds") (m1 := m)]
    · refine ⟨fun h => absurd h.1 (hq _), fun h' => ?_⟩
      obtain ⟨-, v, hv, -⟩ := h'
      have := hv.pos
      have := hv.max
      omega
    · intro n
      exact bind_panic (bind_eq (x := operand _ _) rfl (bind_panic (peek_no h)))

theorem runs_assertBool (hq : r.Quiet) : Runs w f ups (.op .assertBool) m r m' ↔
    ∃ v, m.Top v ∧ m' = m ∧ (((∃ b, v = .bool b) ∧ r = .done .normal) ∨ ((∀ b, v ≠ .bool b) ∧ r = .err .assertBool)) := by
  rcases top_or m with ⟨v, h⟩ | h
  · by_cases hb : ∃ b, v = .bool b
    · obtain ⟨b, rfl⟩ := hb
      rw [Code.op, runs_det (s := .normal) (m1 := m)]
      · constructor
        · rintro ⟨rfl, rfl⟩; exact ⟨_, h, rfl, .inl ⟨⟨b, rfl⟩, rfl⟩⟩
        · rintro ⟨v', h', rfl, ⟨-, rfl⟩ | ⟨hn, rfl⟩⟩
          · exact ⟨rfl, rfl⟩
          · cases h.unique h'; exact absurd rfl (hn b)
      · intro n
        exact bind_eq (bind_eq (peek_top h) rfl) rfl
    · rw [Code.op, runs_det_err (e := .assertBool) (m1 := m)]
      · constructor
        · rintro ⟨rfl, rfl⟩; exact ⟨_, h, rfl, .inr ⟨fun b hv => hb ⟨b, hv⟩, rfl⟩⟩
        · rintro ⟨v', h', rfl, ⟨hx, rfl⟩ | ⟨hn, rfl⟩⟩
          · cases h.unique h'; exact absurd hx hb
          · exact ⟨rfl, rfl⟩
      · intro n
        refine bind_err ((bind_ok (peek_top h)).trans ?_)
        cases v with
        | bool b => exact absurd ⟨b, rfl⟩ hb
        | _ => rfl
  · rw [Code.op, runs_det_panic (s := "index out of bounds") (m1 := m)]
    · refine ⟨fun h => absurd h.1 (hq _), fun h' => ?_⟩
      obtain ⟨v, hv, -⟩ := h'
      have := hv.pos
      have := hv.max
      omega
    · intro n
      exact bind_panic (bind_panic (peek_no h))

theorem popBool_top {b : Bool} (h : m.Top (.bool b)) : popBool m = (.ok b, m.drop) :=
  (bind_ok (pop_top h)).trans rfl

theorem popBool_bad {v : Value} (h : m.Top v) (hv : ∀ b, v ≠ .bool b) : popBool m = (.err .invalidBool, m.drop) := by
  refine (bind_ok (pop_top h)).trans ?_
  cases v with
  | bool b => exact absurd rfl (hv b)
  | _ => rfl

theorem popBool_no (h : m.ptr = 0 ∨ maxStack < m.ptr) : popBool m = (.panic "index out of bounds", m) :=
  bind_panic (pop_no h)

/-- Code under a condition, in terms of the value on top. -/
theorem runs_skipIf_top {b x : Bool} {c : Code} (h : m.Top (.bool x)) : Runs w f ups (.skipIf b c) m r m' ↔
    if x = b then r = .done .normal ∧ m' = m.drop else Runs w f ups c m.drop r m' := by
  rw [runs_skipIf, popBool_top h]
  constructor
  · rintro (⟨h, -⟩ | ⟨x', m1, h, h'⟩)
    · cases h
    · cases h; exact h'
  · exact fun h' => .inr ⟨x, m.drop, rfl, h'⟩

/-- A comparison with null. -/
theorem runs_isNull {o : Opcode} {n : Bool} (ho : (o = .equal ∧ n = true) ∨ (o = .notEqual ∧ n = false)) {v : Value}
    (h : m.Top v) (hr : m.ptr < maxStack) :
    Runs w f ups (.op o) (m.pushed .null) r m' ↔ r = .done .normal ∧ m' = (m.wipe 1).retop (.bool (v.isNull == n)) := by
  have hd : (m.pushed .null).drop = m.wipe 1 := VM.drop_pushed m _
  have key : ∀ call, binaryOp w call o (m.pushed .null) = (.ok (), (m.wipe 1).retop (.bool (v.isNull == n))) := by
    intro call
    refine (bind_ok (pop_top (VM.top_pushed _ hr))).trans ?_
    rw [hd]
    refine (bind_ok (peek_top (VM.top_wipe h 1))).trans ?_
    have : binDecide w o v .null = .value (.bool (v.isNull == n)) := by
      rcases ho with ⟨rfl, rfl⟩ | ⟨rfl, rfl⟩ <;> cases v <;> rfl
    rw [this]
    exact poke_top (VM.top_wipe h 1)
  refine runs_det fun k => ?_
  rcases ho with ⟨rfl, rfl⟩ | ⟨rfl, rfl⟩ <;> exact bind_eq (bind_eq (key _) rfl) rfl

end

end Dice
