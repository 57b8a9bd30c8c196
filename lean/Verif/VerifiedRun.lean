import Verif.Verifier
import Verif.SimProps

/-!
# Valid bytecode is read at the beginning of instructions only

Whatever is on the stack and whatever calls do, the machine that runs valid bytecode stands at the beginning of an
instruction or at the end.  So it meets no byte that is no instruction, for programs that leave the stack unbalanced too.
-/

namespace Dice

/-- Every successful result of a step has the property. -/
def Gives (P : Next → Prop) (y : V Next) : Prop := ∀ m nx m', y m = (.ok nx, m') → P nx

section
variable {P : Next → Prop}

theorem Gives.bind {α : Type} {y : V α} {k : α → V Next} (h : ∀ a, Gives P (k a)) : Gives P (y >>= k) := by
  intro m nx m' he
  obtain ⟨a, m1, -, h2⟩ := Sim.bind_done he
  exact h a _ _ _ h2

theorem Gives.bindOk {α : Type} {y : V α} {k : α → V Next} (h : ∀ a, (∃ m m', y m = (.ok a, m')) → Gives P (k a)) :
    Gives P (y >>= k) := by
  intro m nx m' he
  obtain ⟨a, m1, h1, h2⟩ := Sim.bind_done he
  exact h a ⟨_, _, h1⟩ _ _ _ h2

theorem Gives.pure {nx : Next} (h : P nx) : Gives P (pure nx) := by
  intro m nx m' he
  cases he
  exact h

theorem Gives.err (e : RtErr) : Gives P (V.err e) := nofun

theorem Gives.panic (e : String) : Gives P (V.panic e) := nofun

end

/-- Where an instruction can lead: to the next one, to its target, or out of the function. -/
def Leads (n : Nat) (i : DInstr) (nx : Next) : Prop :=
  nx = .stop ∨ nx = .goto n ∨ ∃ o off, i = .offset o off ∧ nx = .goto (offsetPosition n off)

theorem Gives.goto {n : Nat} {i : DInstr} : Gives (Leads n i) (Pure.pure (.goto n)) := .pure (.inr (.inl rfl))

theorem Gives.stop {n : Nat} {i : DInstr} : Gives (Leads n i) (Pure.pure .stop) := .pure (.inl rfl)

theorem operand_ok {bc : Bytecode} {pos b : Nat} (h : ∃ m m', operand bc pos m = (.ok b, m')) :
    ∃ u : UInt8, readU8 bc.data pos = some u ∧ b = u.toNat := by
  obtain ⟨m, m', h⟩ := h
  unfold operand at h
  cases hr : readU8 bc.data pos with
  | none => rw [hr] at h; cases h
  | some u =>
    rw [hr] at h
    cases h
    exact ⟨_, rfl, rfl⟩

theorem offsetOperand_ok {bc : Bytecode} {pos : Nat} {off : Int} (h : ∃ m m', offsetOperand bc pos m = (.ok off, m')) :
    readOffset bc.data pos = some off := by
  obtain ⟨m, m', h⟩ := h
  unfold offsetOperand at h
  cases hr : readOffset bc.data pos with
  | none => rw [hr] at h; cases h
  | some u =>
    rw [hr] at h
    cases h
    exact rfl

theorem constant_ok {bc : Bytecode} {k : Nat} {v : Value} (h : ∃ m m', constant bc k m = (.ok v, m')) :
    ∃ c, bc.constants[k]? = some c ∧ v = c.toValue := by
  obtain ⟨m, m', h⟩ := h
  unfold constant at h
  cases hr : bc.constants[k]? with
  | none => rw [hr] at h; cases h
  | some u =>
    rw [hr] at h
    cases h
    exact ⟨_, rfl, rfl⟩

/-- The size of an instruction. -/
theorem decodeAt_next {bc : Bytecode} {o : Opcode} {p n : Nat} {i : DInstr} (ho : readInstruction bc.data p = some (some o))
    (hd : decodeAt bc p = some (i, n)) :
    match o.shape with
    | .none => n = p + 1
    | .byte => n = p + 1 + 1
    | .twoBytes => n = p + 1 + 2
    | _ => True := by
  unfold decodeAt at hd
  rw [ho] at hd
  cases o
  all_goals
    dsimp only at hd
    first
      | exact trivial
      | (simp only [Option.map_eq_some_iff, Prod.mk.injEq] at hd
         obtain ⟨_, -, -, rfl⟩ := hd
         exact rfl)
      | (split at hd
         · cases hd; exact rfl
         · cases hd)
      | (cases hd; exact rfl)

/-- A step leads where the decoded instruction says. -/
theorem step_leads {w : World} {k : Calls} {bc : Bytecode} {f : Frame} {ups : Option (List Nat)} {o : Opcode} {p n : Nat}
    {i : DInstr} (ho : readInstruction bc.data p = some (some o)) (hd : decodeAt bc p = some (i, n)) :
    Gives (Leads n i) (step w k bc f ups o (p + 1)) := by
  have next := decodeAt_next ho hd
  unfold decodeAt at hd
  rw [ho] at hd
  cases o
  case jump =>
    refine Gives.bindOk fun off h => .pure ?_
    dsimp only at hd
    rw [offsetOperand_ok h] at hd
    cases hd
    exact .inr (.inr ⟨_, off, rfl, rfl⟩)
  case jumpIfFalse =>
    refine Gives.bindOk fun off h => .bind fun v => .bind fun b => .pure ?_
    dsimp only at hd
    rw [offsetOperand_ok h] at hd
    cases hd
    cases b
    · exact .inr (.inr ⟨_, off, rfl, rfl⟩)
    · exact .inr (.inl rfl)
  case jumpIfTrue =>
    refine Gives.bindOk fun off h => .bind fun v => .bind fun b => .pure ?_
    dsimp only at hd
    rw [offsetOperand_ok h] at hd
    cases hd
    cases b
    · exact .inr (.inl rfl)
    · exact .inr (.inr ⟨_, off, rfl, rfl⟩)
  case createClosure =>
    refine Gives.bindOk fun b h => .bindOk fun v hv => ?_
    obtain ⟨u, hu, rfl⟩ := operand_ok h
    obtain ⟨c, hc, rfl⟩ := constant_ok hv
    dsimp only at hd
    rw [hu] at hd
    dsimp only at hd
    rw [hc] at hd
    cases c with
    | fn code name id =>
      refine Gives.bind fun us => .bind fun _ => .pure (.inr (.inl ?_))
      simp only [Option.map_eq_some_iff, Prod.mk.injEq] at hd
      obtain ⟨⟨caps, q⟩, h1, -, rfl⟩ := hd
      show Next.goto _ = Next.goto q
      rw [(readCaptures_end h1).1]
    | _ => exact Gives.err _
  all_goals
    obtain rfl := next
    unfold step
    dsimp only
    repeat' first
      | with_reducible refine Gives.bind fun _ => ?_
      | with_reducible exact Gives.goto
      | with_reducible exact Gives.stop
      | with_reducible exact Gives.err _
      | with_reducible exact Gives.panic _
      | split

/-- The positions and states that the loop of one call goes through, whatever the calls inside do. -/
inductive Reaches (w : World) (bc : Bytecode) (f : Frame) (ups : Option (List Nat)) : Nat → VM → Prop where
  | start (m : VM) : Reaches w bc f ups 0 m
  | next {p q : Nat} {m m' : VM} {o : Opcode} (k : Calls) (h : Reaches w bc f ups p m)
      (ho : readInstruction bc.data p = some (some o)) (hs : step w k bc f ups o (p + 1) m = (.ok (.goto q), m')) :
      Reaches w bc f ups q m'

section
variable {w : World} {bc : Bytecode} {f : Frame} {ups : Option (List Nat)} {p : Nat} {m : VM}

/-- **C65**, running: the machine stands at the beginning of an instruction or at the end. -/
theorem Verified.reaches_boundary (hv : Verified bc) (h : Reaches w bc f ups p m) : Boundary bc p := by
  induction h with
  | start => exact .zero
  | @next p q m m' o k _ ho hs ih =>
    have hlt : p < bc.data.length := by
      rcases Nat.lt_or_ge p bc.data.length with h | h
      · exact h
      · unfold readInstruction at ho
        rw [List.getElem?_eq_none h] at ho
        cases ho
    cases hv with
    | mk _ valid _ =>
      obtain ⟨i, n, hd, hi⟩ := valid p ih hlt
      rcases step_leads ho hd _ _ _ hs with h | h | ⟨o', off, rfl, h⟩
      · cases h
      · cases h; exact .step ih hd
      · cases h; exact hi

/-- **C65**, running: the machine never meets a byte that is no instruction, nor one beyond the end. -/
theorem Verified.fetches (hv : Verified bc) (h : Reaches w bc f ups p m) :
    (p = bc.data.length ∧ ∀ m, fetch bc p m = (.ok none, m)) ∨ ∃ o, ∀ m, fetch bc p m = (.ok (some o), m) := by
  have hb := hv.reaches_boundary h
  cases hv with
  | mk inside valid _ =>
    rcases Nat.lt_or_ge p bc.data.length with hlt | hge
    · obtain ⟨i, n, hd, -⟩ := valid p hb hlt
      refine .inr ?_
      unfold fetch
      unfold decodeAt at hd
      split at hd
      · rename_i o ho
        rw [ho]
        exact ⟨o, fun _ => rfl⟩
      · cases hd
    · refine .inl ⟨Nat.le_antisymm (inside p hb) hge, fun m => ?_⟩
      unfold fetch readInstruction
      rw [List.getElem?_eq_none hge]
      rfl

end

/-- An endless loop: the jump leads back to the beginning, from any state. -/
example (w : World) (f : Frame) (m : VM) :
    Reaches w ⟨[Opcode.jump.toByte, 255, 253], 0, 0, []⟩ f none 0 m :=
  .next ⟨fun _ => pure (), fun _ _ _ => pure .null, fun _ _ => pure .null⟩ (.start m) (o := .jump) (by decide +kernel)
    (by kernel_rfl)

end Dice
