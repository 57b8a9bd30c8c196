import Verif.VmInv

/-!
# Evaluating machine computations

Equations for the primitives of the machine on states of known shape.
-/

namespace Dice

theorem bind_ok {α β : Type} {x : V α} {f : α → V β} {m m' : VM} {a : α} (h : x m = (.ok a, m')) :
    (x >>= f) m = f a m' := by
  show V.bind x f m = _
  unfold V.bind
  rw [h]

theorem bind_err {α β : Type} {x : V α} {f : α → V β} {m m' : VM} {e : RtErr} (h : x m = (.err e, m')) :
    (x >>= f) m = (.err e, m') := by
  show V.bind x f m = _
  unfold V.bind
  rw [h]

theorem bind_panic {α β : Type} {x : V α} {f : α → V β} {m m' : VM} {s : String}
    (h : x m = (.panic s, m')) : (x >>= f) m = (.panic s, m') := by
  show V.bind x f m = _
  unfold V.bind
  rw [h]

theorem bind_timeout {α β : Type} {x : V α} {f : α → V β} {m m' : VM} (h : x m = (.timeout, m')) :
    (x >>= f) m = (.timeout, m') := by
  show V.bind x f m = _
  unfold V.bind
  rw [h]

theorem pure_eval {α : Type} (a : α) (m : VM) : (pure a : V α) m = (.ok a, m) := rfl

theorem push_eval {m : VM} (v : Value) (h : m.ptr < maxStack) :
    push v m = (.ok (), { m with mem := upd m.mem m.ptr v, ptr := m.ptr + 1 }) := by
  unfold push
  rw [if_pos h]

theorem pop_eval {m : VM} {p : Nat} (h : m.ptr = p + 1) (hm : p < maxStack) :
    pop m = (.ok (m.mem p), { m with mem := upd m.mem p .null, ptr := p }) := by
  unfold pop
  rw [if_neg (by omega)]
  have : m.ptr - 1 = p := by omega
  rw [this]

theorem peek_eval {m : VM} {i p : Nat} (h : m.ptr = p + i + 1) (hm : p < maxStack) :
    peek i m = (.ok (m.mem p), m) := by
  unfold peek
  have : m.ptr - i - 1 = p := by omega
  rw [this, if_pos ⟨by omega, hm⟩]

theorem poke_eval {m : VM} {i p : Nat} (v : Value) (h : m.ptr = p + i + 1) (hm : p < maxStack) :
    poke i v m = (.ok (), { m with mem := upd m.mem p v }) := by
  unfold poke
  have : m.ptr - i - 1 = p := by omega
  rw [this, if_pos ⟨by omega, hm⟩]

theorem upd_same (mem : Nat → Value) (i : Nat) (v : Value) : upd mem i v i = v := by
  unfold upd
  rw [if_pos rfl]

theorem upd_other {mem : Nat → Value} {i j : Nat} {v : Value} (h : j ≠ i) : upd mem i v j = mem j := by
  unfold upd
  rw [if_neg h]

theorem upd_upd (mem : Nat → Value) (i : Nat) (v x : Value) : upd (upd mem i v) i x = upd mem i x := by
  funext j
  unfold upd
  split <;> rfl

theorem upd_comm {mem : Nat → Value} {i j : Nat} {v x : Value} (h : i ≠ j) :
    upd (upd mem i v) j x = upd (upd mem j x) i v := by
  funext k
  unfold upd
  split
  · split
    · omega
    · rfl
  · rfl

theorem upd_self (mem : Nat → Value) (i : Nat) : upd mem i (mem i) = mem := by
  funext j
  unfold upd
  split
  · rename_i h; rw [h]
  · rfl

/-- The machine has `lhs` and `rhs` on top of its stack, `lhs` at position `p`. -/
structure Top2 (m : VM) (p : Nat) (lhs rhs : Value) : Prop where
  ptr : m.ptr = p + 2
  bound : p + 2 ≤ maxStack
  lhs : m.mem p = lhs
  rhs : m.mem (p + 1) = rhs

/-- The machine after the two top values have been replaced by `v`. -/
def VM.replace2 (m : VM) (p : Nat) (v : Value) : VM :=
  { m with mem := upd (upd m.mem (p + 1) .null) p v, ptr := p + 1 }

/-- A binary operator on two known values, up to the decision. -/
theorem binaryOp_top2 (w : World) (cf : Nat → V Unit) (o : Opcode) {m : VM} {p : Nat} {lhs rhs : Value}
    (h : Top2 m p lhs rhs) :
    binaryOp w cf o m =
      (match binDecide w o lhs rhs with
       | .value v => poke 0 v
       | .int x => i64Result w x >>= fun r => poke 0 (.int r)
       | .quotient l r => i64Div l r >>= fun q => poke 0 (.int q)
       | .remainder l r => i64Rem l r >>= fun q => poke 0 (.int q)
       | .divideByZero => V.err .divideByZero
       | .call name => callBinaryOp w cf name rhs)
      { m with mem := upd m.mem (p + 1) .null, ptr := p + 1 } := by
  unfold binaryOp
  have hb := h.bound
  rw [bind_ok (pop_eval (p := p + 1) (by rw [h.ptr]) (by omega))]
  rw [bind_ok (peek_eval (i := 0) (p := p) rfl (by omega))]
  rw [show ({ m with mem := upd m.mem (p + 1) .null, ptr := p + 1 } : VM).mem p = lhs from by
    rw [show ({ m with mem := upd m.mem (p + 1) .null, ptr := p + 1 } : VM).mem p = upd m.mem (p + 1) .null p
      from rfl, upd_other (by omega), h.lhs]]
  rw [h.rhs]
  rfl

theorem poke_top2 {m : VM} {p : Nat} {lhs rhs : Value} (v : Value) (h : Top2 m p lhs rhs) :
    poke 0 v { m with mem := upd m.mem (p + 1) .null, ptr := p + 1 } = (.ok (), m.replace2 p v) :=
  poke_eval (p := p) v rfl (by have := h.bound; omega)

/-- A binary operator whose outcome is decided by the two values alone. -/
theorem binaryOp_value (w : World) (cf : Nat → V Unit) {o : Opcode} {m : VM} {p : Nat} {lhs rhs v : Value}
    (h : Top2 m p lhs rhs) (hd : binDecide w o lhs rhs = .value v) :
    binaryOp w cf o m = (.ok (), m.replace2 p v) := by
  rw [binaryOp_top2 w cf o h, hd]
  exact poke_top2 v h

end Dice
