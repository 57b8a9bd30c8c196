import Verif.SimSession

/-!
# A program with a large body

C07: a conditional whose first branch is 65536 bytes long is accepted, and the jump over the branch goes to its beginning.
-/

namespace Dice

/-- `null`, `n` times as statements. -/
def nullsCode : Nat → List UInt8
  | 0 => []
  | n + 1 => Opcode.pushNull.toByte :: Opcode.pop.toByte :: nullsCode n

theorem nullsCode_length : ∀ n, (nullsCode n).length = 2 * n
  | 0 => rfl
  | n + 1 => by simp [nullsCode, nullsCode_length n]; omega

theorem visit_nulls (last : M Unit) (rest : List Ctx) (id : Nat) : ∀ (n : Nat) (c : Ctx),
    visitSeq (List.replicate n .null) last ⟨c :: rest, id⟩ =
      last ⟨{ c with asm := { c.asm with data := c.asm.data ++ nullsCode n } } :: rest, id⟩
  | 0, c => by simp [visitSeq, nullsCode]
  | n + 1, c => by
    rw [List.replicate_succ, visitSeq]
    simp only [bind, M.bind, visit, emit, emitE, getCtx, setCtx]
    rw [visit_nulls last rest id n]
    simp [Asm.op, Asm.putU8, nullsCode]

theorem scan_nulls (s : CState) : ∀ n : Nat, scanExprs (List.replicate n .null) s = .ok ((), s)
  | 0 => rfl
  | n + 1 => by
    rw [List.replicate_succ, scanExprs]
    simp only [bind, M.bind, scanExpr, pure, M.pure]
    exact scan_nulls s n

/-- The state of the compiler after it has emitted some bytes. -/
def put (c : Ctx) (bs : List UInt8) : Ctx := { c with asm := { c.asm with data := c.asm.data ++ bs } }

theorem emit_put (o : Opcode) (c : Ctx) (rest : List Ctx) (id : Nat) : emit o ⟨c :: rest, id⟩ = .ok ((), ⟨put c [o.toByte] :: rest, id⟩) := rfl

theorem put_put (c : Ctx) (a b : List UInt8) : put (put c a) b = put c (a ++ b) := by simp [put]

theorem patch_put (c : Ctx) (b : List UInt8) (x y : UInt8) (rest : List Ctx) (id : Nat) :
    patch c.asm.data.length ⟨put c (x :: y :: b) :: rest, id⟩ = .ok ((), ⟨put c (encodeI16 (asI16 b.length) ++ b) :: rest, id⟩) := by
  have h1 : (c.asm.data ++ x :: y :: b).take c.asm.data.length = c.asm.data := List.take_left
  have h2 : (c.asm.data ++ x :: y :: b).drop (c.asm.data.length + 2) = b := by
    rw [show c.asm.data ++ x :: y :: b = (c.asm.data ++ [x, y]) ++ b by simp, show c.asm.data.length + 2 = (c.asm.data ++ [x, y]).length by simp]
    exact List.drop_left
  have h3 : ((c.asm.data ++ x :: y :: b).length : Int) - c.asm.data.length - 2 = b.length := by simp; omega
  unfold patch emitE
  simp only [bind, M.bind, getCtx, Asm.patchJump, put, h1, h2, h3]
  rw [if_pos (by simp)]
  simp [setCtx]

theorem block_put {es : List Expr} {t : Option Expr} {x : M Unit} {bs : List UInt8} {rest : List Ctx} {id : Nat} {c : Ctx}
    (hs : ∀ s, scanItems es t s = .ok ((), s)) (hx : ∀ c, x ⟨c :: rest, id⟩ = .ok ((), ⟨put c bs :: rest, id⟩)) :
    inBlock .block es t x ⟨c :: rest, id⟩ = .ok ((), ⟨put c bs :: rest, id⟩) := by
  unfold inBlock
  simp only [bind, M.bind, pushScope, getCtx, setCtx, hs, hx, pure, M.pure]
  rfl

/-- `if false { 1 / 0  null … null } else { true }` with `n + 1` times `null`. -/
def bigIf (n : Nat) : Expr :=
  .block [] (some (.ifExpr (.bool false)
    (.block (.binary .divide (.int 1) (.int 0) :: List.replicate n .null) (some .null))
    (some (.block [] (some (.bool true))))))

/-- The bytes of the first branch. -/
def bigBranch (n : Nat) : List UInt8 :=
  Opcode.pushI1.toByte :: Opcode.pushI0.toByte :: Opcode.divide.toByte :: Opcode.pop.toByte :: (nullsCode n ++ [Opcode.pushNull.toByte])

theorem bigBranch_length (n : Nat) : (bigBranch n).length = 2 * n + 5 := by
  simp [bigBranch, nullsCode_length]

theorem branch_put (n : Nat) (c : Ctx) (rest : List Ctx) (id : Nat) :
    visit (.block (.binary .divide (.int 1) (.int 0) :: List.replicate n .null) (some .null)) ⟨c :: rest, id⟩ =
      .ok ((), ⟨put c (bigBranch n) :: rest, id⟩) := by
  rw [visit]
  refine block_put (fun s => ?_) fun c => ?_
  · simp only [scanItems, scanExprs, scanExpr, bind, M.bind, pure, M.pure, scan_nulls]
  · have h : visit (.binary .divide (.int 1) (.int 0)) ⟨c :: rest, id⟩ =
        .ok ((), ⟨put c [Opcode.pushI1.toByte, Opcode.pushI0.toByte, Opcode.divide.toByte] :: rest, id⟩) := by
      rw [visit, visit, visit]
      simp only [visitBinary, bind, M.bind, show visitInt 1 = emit .pushI1 from rfl, show visitInt 0 = emit .pushI0 from rfl, emit_put,
        BinaryOp.opcode, put_put]
      rfl
    rw [visitSeq]
    simp only [bind, M.bind, h, emit_put, put_put, visit_nulls]
    rw [visitElse, visit]
    show emit .pushNull ⟨put (put c _) (nullsCode n) :: rest, id⟩ = _
    rw [emit_put, put_put, put_put]
    simp [bigBranch]

theorem bigIf_compiles (n : Nat) : compile .script (bigIf n) = .ok ⟨Opcode.pushFalse.toByte :: Opcode.jumpIfFalse.toByte ::
    (encodeI16 (asI16 ((2 * n + 8 : Nat) : Int)) ++ (bigBranch n ++ Opcode.jump.toByte :: (encodeI16 (asI16 1) ++ [Opcode.pushTrue.toByte]))), 0, 0, []⟩ := by
  have hif : ∀ c, visit (.ifExpr (.bool false) (.block (.binary .divide (.int 1) (.int 0) :: List.replicate n .null) (some .null))
      (some (.block [] (some (.bool true))))) ⟨[c], 0⟩ = .ok ((), ⟨[put c (Opcode.pushFalse.toByte :: Opcode.jumpIfFalse.toByte ::
    (encodeI16 (asI16 ((2 * n + 8 : Nat) : Int)) ++ (bigBranch n ++ Opcode.jump.toByte :: (encodeI16 (asI16 1) ++ [Opcode.pushTrue.toByte]))))], 0⟩) := by
    intro c
    rw [visit]
    have hc : ∀ c, visit (.bool false) ⟨[c], 0⟩ = .ok ((), ⟨[put c [Opcode.pushFalse.toByte]], 0⟩) := fun c => rfl
    have he : ∀ c, visitElse (some (.block [] (some (.bool true)))) ⟨[c], 0⟩ = .ok ((), ⟨[put c [Opcode.pushTrue.toByte]], 0⟩) := by
      intro c
      rw [visitElse, visit]
      exact block_put (fun s => rfl) fun c => by rw [visitSeq, visitElse, visit]; rfl
    have hj : ∀ o (c : Ctx), emitJump o ⟨[c], 0⟩ = .ok ((put c [o.toByte]).asm.data.length, ⟨[put (put c [o.toByte]) (encodeI16 0)], 0⟩) := fun o c => rfl
    have h0 : encodeI16 0 = [0, 0] := by decide
    unfold visitIf
    simp only [bind, M.bind, hc, hj, branch_put, he, h0]
    rw [show ∀ c : Ctx, put (put (put (put c [0, 0]) (bigBranch n)) [Opcode.jump.toByte]) [0, 0] =
      put c (0 :: 0 :: (bigBranch n ++ [Opcode.jump.toByte, 0, 0])) from fun c => by simp [put_put]]
    rw [patch_put]
    simp only [he]
    generalize hc1 : put (put c [Opcode.pushFalse.toByte]) [Opcode.jumpIfFalse.toByte] = c1
    obtain ⟨e, hee⟩ : ∃ e, e = encodeI16 (asI16 ((bigBranch n ++ [Opcode.jump.toByte, 0, 0]).length : Int)) := ⟨_, rfl⟩
    have hlen : e.length = 2 := by rw [hee]; rfl
    rw [← hee]
    have hp : (put (put (put c1 [0, 0]) (bigBranch n)) [Opcode.jump.toByte]).asm.data.length =
        (put c1 (e ++ (bigBranch n ++ [Opcode.jump.toByte]))).asm.data.length := by
      simp [put, hlen]
      omega
    rw [hp, show put (put c1 (e ++ (bigBranch n ++ [Opcode.jump.toByte, 0, 0]))) [Opcode.pushTrue.toByte] =
      put (put c1 (e ++ (bigBranch n ++ [Opcode.jump.toByte]))) (0 :: 0 :: [Opcode.pushTrue.toByte]) by simp [put_put], patch_put, ← hc1, hee]
    simp [put_put, bigBranch_length, show (2 * (n : Int) + 5 + 3) = 2 * n + 8 by omega]
  unfold compile compileM bigIf
  rw [visit]
  have hb := block_put (es := []) (t := some (.ifExpr (.bool false) (.block (.binary .divide (.int 1) (.int 0) :: List.replicate n .null) (some .null))
    (some (.block [] (some (.bool true)))))) (x := visitSeq [] (visitElse (some (.ifExpr (.bool false)
      (.block (.binary .divide (.int 1) (.int 0) :: List.replicate n .null) (some .null)) (some (.block [] (some (.bool true))))))))
    (rest := []) (id := 0) (c := { kind := .script }) (fun s => rfl) (fun c => by rw [visitSeq, visitElse]; exact hif c)
  simp only [bind, M.bind, pure, M.pure, hb]
  rfl

/-- Evaluated as a source program, `if false { … } else { true }` gives `true`, whatever the first branch holds. -/
theorem bigIf_value (k : Nat) (w : World) (known : Src.Known) (src : Src.Sources) (n : Nat) (σ : Src.State) :
    (Src.program w known src (n + 10) (bigIf k) σ).1 = .ok (.bool true) := by
  simp [Src.program, bigIf, Src.eval, Src.block, Src.hoist, Src.hoisted, Src.evalStmts, Src.evalOpt, bind, Src.S.bind, pure, Src.S.pure, Src.S.operand,
    Src.S.guard, Src.declares, Src.declaresOpt, Src.truth]

/-- A run that jumps to the beginning of the first branch divides by zero. -/
theorem wrong_branch (rest : List UInt8) (w : World) (n : Nat) (m : VM) (h : m.ptr + 2 < maxStack) :
    (run w (n + 10) ⟨Opcode.pushFalse.toByte :: Opcode.jumpIfFalse.toByte :: 0 :: 0 :: Opcode.pushI1.toByte ::
      Opcode.pushI0.toByte :: Opcode.divide.toByte :: rest, 0, 0, []⟩ m).1 = .err .divideByZero := by
  generalize hb : (⟨_, 0, 0, []⟩ : Bytecode) = bc
  have hd : bc.data = Opcode.pushFalse.toByte :: Opcode.jumpIfFalse.toByte :: 0 :: 0 :: Opcode.pushI1.toByte ::
      Opcode.pushI0.toByte :: Opcode.divide.toByte :: rest := by rw [← hb]
  have h0 : offsetOperand bc 2 = pure 0 := by
    have e2 : bc.data[2]? = some 0 := by rw [hd]; simp
    have e3 : bc.data[2 + 1]? = some 0 := by rw [hd]; simp
    have e : readOffset bc.data 2 = some 0 := by
      unfold readOffset
      rw [e2, e3]
      decide
    unfold offsetOperand
    rw [e]
  have hz : bc.slotCount = 0 := by rw [← hb]
  have r0 : m.ptr < maxStack := by omega
  have r1 : m.ptr + 1 < maxStack := by omega
  have hl : ∀ f ups, (loop w (n + 9) bc f ups 0 m).1 = .err .divideByZero := by
    intro f ups
    rw [loop_succ (o := .pushFalse) (by rw [hd]; rfl)]
    simp only [step, bind_assoc, pure_bind]
    rw [bind_eq (push_room r0) rfl, loop_succ (o := .jumpIfFalse) (by rw [hd]; rfl)]
    simp only [step, bind_assoc, pure_bind, h0]
    rw [bind_eq (pop_top (VM.top_pushed _ r0)) rfl]
    simp only [asBool, pure_bind, VM.drop_pushed, Bool.false_eq_true, if_false]
    rw [show offsetPosition (1 + 1 + 2) 0 = 4 from rfl, loop_succ (o := .pushI1) (by rw [hd]; rfl)]
    simp only [step, bind_assoc, pure_bind]
    rw [bind_eq (push_room (m := m.wipe 1) r0) rfl, loop_succ (o := .pushI0) (by rw [hd]; rfl)]
    simp only [step, bind_assoc, pure_bind]
    rw [bind_eq (push_room (m := (m.wipe 1).pushed (.int 1)) r1) rfl, loop_succ (o := .divide) (by rw [hd]; rfl)]
    simp only [step, binaryOp, bind_assoc]
    rw [bind_eq (pop_top (m := ((m.wipe 1).pushed (.int 1)).pushed (.int 0)) (VM.top_pushed _ r1)) rfl, bind_eq (peek_top (v := .int 1) (by
      rw [VM.drop_pushed]; exact VM.top_wipe (VM.top_pushed (m := m.wipe 1) _ r0) 1)) rfl]
    rfl
  unfold run
  rw [bind_eq (a := ⟨m.ptr, m.ptr⟩) (m1 := m) (by simp [reserveSlots, hz, r0]) rfl, execute]
  have h1 := hl ⟨m.ptr, m.ptr⟩ none
  revert h1
  simp only [bind, V.bind, V.get]
  cases loop w (n + 9) bc ⟨m.ptr, m.ptr⟩ none 0 m with
  | mk o m1 => intro h1; cases h1; rfl

/-- C07 at the level of programs: some program is compiled, it means `true`, and its run divides by zero on every
machine with room for two values, because the distance of its jump over 65536 bytes is truncated to 0. -/
theorem oversized_jump_changes_program :
    ∃ e bc, compile .script e = .ok bc ∧
      (∀ w known src n σ, (Src.program w known src (n + 10) e σ).1 = .ok (.bool true)) ∧
      ∀ w n (m : VM), m.ptr + 2 < maxStack → (run w (n + 10) bc m).1 = .err .divideByZero := by
  refine ⟨bigIf 32764, _, bigIf_compiles 32764, bigIf_value 32764, fun w n m h => ?_⟩
  have hj : encodeI16 (asI16 ((2 * 32764 + 8 : Nat) : Int)) = [0, 0] := by decide
  rw [hj, bigBranch]
  exact wrong_branch _ w n m h

end Dice
