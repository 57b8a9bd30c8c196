import Verif.Struct
import Verif.VmLemmas
import Verif.AssemblerProps

/-!
# Laid out bytecode behaves as its structured code
-/

namespace Dice

instance : LawfulMonad V := LawfulMonad.mk' (m := V)
  (id_map := by
    intro α x
    funext m
    show (V.bind x (fun a => V.pure (id a))) m = x m
    unfold V.bind V.pure
    cases h : x m with
    | mk o m' => cases o <;> rfl)
  (pure_bind := by intros; rfl)
  (bind_assoc := by
    intro α β γ x f g
    funext m
    show V.bind (V.bind x f) g m = V.bind x (fun a => V.bind (f a) g) m
    unfold V.bind
    cases h : x m with
    | mk o m' => cases o <;> rfl)

theorem fetch_at {bc : Bytecode} {p : Nat} {o : Opcode} (h : bc.data[p]? = some o.toByte) :
    fetch bc p = pure (some o) := by
  unfold fetch readInstruction
  rw [h]
  simp only [Option.map_some, opcode_roundtrip]

theorem operand_at {bc : Bytecode} {p : Nat} {b : UInt8} (h : bc.data[p]? = some b) :
    operand bc p = pure b.toNat := by
  unfold operand readU8
  rw [h]

theorem constant_at {bc : Bytecode} {i : Nat} {c : Const} (h : bc.constants[i]? = some c) :
    constant bc i = pure c.toValue := by
  unfold constant
  rw [h]

/-- One step of the machine loop. -/
theorem loop_succ {w : World} {n : Nat} {bc : Bytecode} {f : Frame} {ups : Option (List Nat)} {p : Nat} {o : Opcode}
    (h : bc.data[p]? = some o.toByte) :
    loop w (n + 1) bc f ups p = (do
      let nx ← step w (callsAt w n) bc f ups o (p + 1)
      match nx with
      | .goto pos => loop w n bc f ups pos
      | .stop => pure ()) := by
  rw [loop]
  rw [fetch_at h]
  rfl

/-- Where the machine goes after an instruction that ends at `q`. -/
def Sig.next (q : Nat) : Sig → Next
  | .stop => .stop
  | _ => .goto q

theorem step_plain {w : World} {k : Calls} {bc : Bytecode} {f : Frame} {ups : Option (List Nat)} {o : Opcode} (pos : Nat)
    (h : o.isPlain = true) :
    step w k bc f ups o pos = (do
      let nx ← step w k ⟨[], 0, 0, []⟩ f ups o 0
      pure (nx.sig.next pos)) := by
  cases o <;> first | (cases h; done) | skip
  all_goals simp only [step, bind_assoc, pure_bind, Next.sig, Sig.next]
  all_goals try rfl
  congr 1
  funext v
  cases v <;> rfl


theorem step_byte {w : World} {k : Calls} {bc : Bytecode} {f : Frame} {ups : Option (List Nat)} {o : Opcode} {pos : Nat}
    {b : UInt8} (h : o.isByte = true) (hb : bc.data[pos]? = some b) :
    step w k bc f ups o pos = (do
      let nx ← step w k ⟨[b], 0, 0, []⟩ f ups o 0
      pure (nx.sig.next (pos + 1))) := by
  have e1 := operand_at hb
  have e2 : operand ⟨[b], 0, 0, []⟩ 0 = pure b.toNat := operand_at (b := b) rfl
  cases o <;> first | (cases h; done) | skip
  all_goals simp only [step, e1, e2, bind_assoc, pure_bind, Next.sig, Sig.next]

theorem step_const {w : World} {k : Calls} {bc : Bytecode} {f : Frame} {ups : Option (List Nat)} {o : Opcode} {pos : Nat}
    {i : UInt8} {c : Const} (h : o.isConst = true) (hb : bc.data[pos]? = some i)
    (hc : bc.constants[i.toNat]? = some c) :
    step w k bc f ups o pos = (do
      let nx ← step w k ⟨[0], 0, 0, [c]⟩ f ups o 0
      pure (nx.sig.next (pos + 1))) := by
  have e1 := operand_at hb
  have e2 : operand ⟨[0], 0, 0, [c]⟩ 0 = pure 0 := operand_at (b := 0) rfl
  have e3 := constant_at hc
  have e4 : constant ⟨[0], 0, 0, [c]⟩ 0 = pure c.toValue := constant_at (bc := ⟨[0], 0, 0, [c]⟩) rfl
  cases o <;> first | (cases h; done) | skip
  all_goals simp only [step, symbolOperand, e1, e2, e3, e4, bind_assoc, pure_bind, Next.sig, Sig.next]
  case loadMethod =>
    congr 1; funext key; congr 1; funext receiver; congr 1; funext c; congr 1; funext cls; congr 1; funext ok
    cases ok
    · rfl
    · simp only [if_true, bind_assoc, pure_bind]
  case storeMethod =>
    congr 1; funext key; congr 1; funext v; congr 1; funext o; congr 1; funext cls
    split
    · simp only [bind_assoc, pure_bind]
    · rfl

theorem captureOne_shift {bc bc' : Bytecode} {f : Frame} {ups : Option (List Nat)} {pos pos' : Nat}
    (h0 : bc.data[pos]? = bc'.data[pos']?) (h1 : bc.data[pos + 1]? = bc'.data[pos' + 1]?) :
    captureOne bc f ups pos = captureOne bc' f ups pos' := by
  unfold captureOne operand readU8
  rw [h0, h1]

theorem captures_shift {bc bc' : Bytecode} {f : Frame} {ups : Option (List Nat)} (n : Nat) {pos pos' : Nat}
    (h : ∀ j, j < 2 * n → bc.data[pos + j]? = bc'.data[pos' + j]?) :
    captures bc f ups n pos = captures bc' f ups n pos' := by
  induction n generalizing pos pos' with
  | zero => rfl
  | succ n ih =>
    unfold captures
    rw [captureOne_shift (bc := bc) (bc' := bc') (pos := pos) (pos' := pos') (h 0 (by omega)) (h 1 (by omega))]
    rw [ih (pos := pos + 2) (pos' := pos' + 2)]
    intro j hj
    have := h (2 + j) (by omega)
    rw [Nat.add_assoc, Nat.add_assoc]
    exact this

theorem step_closure {w : World} {k : Calls} {bc : Bytecode} {f : Frame} {ups : Option (List Nat)} {pos : Nat}
    {i : UInt8} {code : Bytecode} {name : String} {id : Nat} {captured : List UpvalueDescriptor}
    (hb : bc.data[pos]? = some i) (hc : bc.constants[i.toNat]? = some (.fn code name id))
    (hu : code.upvalueCount = captured.length)
    (hd : ∀ j, j < 2 * captured.length → bc.data[pos + 1 + j]? = (captured.flatMap Asm.captureBytes)[j]?) :
    step w k bc f ups .createClosure pos = (do
      let nx ← step w k (Instr.closure code name id captured).operands f ups .createClosure 0
      pure (nx.sig.next (pos + 1 + 2 * captured.length))) := by
  have e1 := operand_at hb
  have e2 : operand (Instr.closure code name id captured).operands 0 = pure 0 := operand_at (b := 0) rfl
  have e3 := constant_at hc
  have e4 : constant (Instr.closure code name id captured).operands 0 = pure (Const.fn code name id).toValue :=
    constant_at (bc := (Instr.closure code name id captured).operands) rfl
  simp only [step, e1, e2, e3, e4, bind_assoc, pure_bind, Const.toValue, Next.sig, Sig.next]
  rw [captures_shift (bc' := (Instr.closure code name id captured).operands) (pos' := 0 + 1), hu]
  intro j hj
  rw [hu] at hj
  rw [hd j hj]
  show _ = (0 :: captured.flatMap Asm.captureBytes)[0 + 1 + j]?
  rw [show 0 + 1 + j = j + 1 by omega, List.getElem?_cons_succ]

theorem step_fieldToLocal {w : World} {k : Calls} {bc : Bytecode} {f : Frame} {ups : Option (List Nat)} {pos : Nat}
    {i slot : UInt8} {field : String} (hb : bc.data[pos]? = some i)
    (hc : bc.constants[i.toNat]? = some (.sym field)) (hs : bc.data[pos + 1]? = some slot) :
    step w k bc f ups .loadFieldToLocal pos = (do
      let nx ← step w k (Instr.fieldToLocal field slot).operands f ups .loadFieldToLocal 0
      pure (nx.sig.next (pos + 2))) := by
  have e1 := operand_at hb
  have e2 : operand (Instr.fieldToLocal field slot).operands 0 = pure 0 := operand_at (b := 0) rfl
  have e3 := constant_at hc
  have e4 : constant (Instr.fieldToLocal field slot).operands 0 = pure (Const.sym field).toValue :=
    constant_at (bc := (Instr.fieldToLocal field slot).operands) rfl
  have e5 := operand_at hs
  have e6 : operand (Instr.fieldToLocal field slot).operands (0 + 1) = pure slot.toNat := operand_at (b := slot) rfl
  have e0 : (0 : UInt8).toNat = 0 := rfl
  simp only [step, e1, e2, e3, e4, e5, e6, bind_assoc, pure_bind, Next.sig, Sig.next, e0]

/-- The machine's step on an encoded instruction is the effect of the instruction. -/
theorem step_encodes {w : World} {n : Nat} {bc : Bytecode} {f : Frame} {ups : Option (List Nat)} {p q : Nat} {i : Instr}
    (h : Encodes bc p q i) :
    bc.data[p]? = some i.opcode.toByte ∧
    step w (callsAt w n) bc f ups i.opcode (p + 1) = (do
      let s ← istep w n f ups i
      pure (s.next q)) := by
  unfold istep
  simp only [bind_assoc, pure_bind]
  cases i with
  | op o =>
    obtain ⟨h1, h2, rfl⟩ := h
    exact ⟨h2, step_plain (p + 1) h1⟩
  | byte o b =>
    obtain ⟨h1, h2, h3, rfl⟩ := h
    exact ⟨h2, step_byte h1 h3⟩
  | const o c =>
    obtain ⟨h1, h2, rfl, k, h3, h4⟩ := h
    exact ⟨h2, step_const h1 h3 h4⟩
  | closure code name id captured =>
    obtain ⟨h1, h2, rfl, ⟨k, h3, h4⟩, h5⟩ := h
    exact ⟨h1, step_closure h3 h4 h2 h5⟩
  | fieldToLocal field slot =>
    obtain ⟨h1, rfl, ⟨k, h3, h4⟩, h5⟩ := h
    exact ⟨h1, step_fieldToLocal h3 h4 h5⟩

theorem offsetOperand_lands {bc : Bytecode} {h t : Nat} (hl : Lands bc h t) :
    ∃ off, offsetOperand bc h = pure off ∧ offsetPosition (h + 2) off = t := by
  obtain ⟨off, h1, h2⟩ := hl
  refine ⟨off, ?_, h2⟩
  unfold offsetOperand
  rw [h1]

theorem loop_jump {w : World} {n : Nat} {bc : Bytecode} {f : Frame} {ups : Option (List Nat)} {p t : Nat}
    (h : JumpAt bc p .jump t) : loop w n bc f ups p = tick (fun n => loop w n bc f ups t) n := by
  cases n with
  | zero => rw [loop]; rfl
  | succ n =>
    obtain ⟨off, h1, h2⟩ := offsetOperand_lands h.2
    rw [loop_succ h.1]
    simp only [step, h1, pure_bind, tick]
    rw [h2]

theorem loop_condJump {w : World} {n : Nat} {bc : Bytecode} {f : Frame} {ups : Option (List Nat)} {p t : Nat} {b : Bool}
    (h : JumpAt bc p (condJump b) t) :
    loop w n bc f ups p = tick (fun n => do
      let x ← popBool
      loop w n bc f ups (if x = b then t else p + 3)) n := by
  cases n with
  | zero => rw [loop]; rfl
  | succ n =>
    obtain ⟨off, h1, h2⟩ := offsetOperand_lands h.2
    rw [loop_succ h.1]
    cases b
    all_goals
      simp only [condJump, if_true, Bool.false_eq_true, if_false, step, h1, pure_bind, bind_assoc, tick, popBool]
      congr 1; funext v; congr 1; funext x
      rw [← h2]
      try (cases x <;> rfl)

theorem bind_ok_inv {α β : Type} {x : V α} {g : α → V β} {m m' : VM} {b : β} (h : (x >>= g) m = (.ok b, m')) :
    ∃ a m1, x m = (.ok a, m1) ∧ g a m1 = (.ok b, m') := by
  have h : V.bind x g m = (.ok b, m') := h
  unfold V.bind at h
  cases hx : x m with
  | mk o m1 =>
    rw [hx] at h
    cases o with
    | ok a => exact ⟨a, m1, rfl, h⟩
    | _ => cases h

/-- The budget never grows, and shrinks unless the code ends normally. -/
def Budget (x : X) : Prop :=
  ∀ (n n' : Nat) (s : Sig) (m m' : VM), x n m = (.ok (s, n'), m') → n' ≤ n ∧ (s ≠ .normal → n' < n)

theorem budget_tick {x : X} (h : ∀ (n n' : Nat) (s : Sig) (m m' : VM), x n m = (.ok (s, n'), m') → n' ≤ n) :
    Budget (tick x) := by
  intro n n' s m m' hx
  cases n with
  | zero => cases hx
  | succ n =>
    have := h _ _ _ _ _ hx
    omega

theorem budget_thenRun {x y : X} (hx : Budget x) (hy : Budget y) : Budget (fun n => x n >>= thenRun y) := by
  intro n n' s m m' h
  obtain ⟨⟨s1, n1⟩, m1, h1, h2⟩ := bind_ok_inv h
  have b1 := hx _ _ _ _ _ h1
  unfold thenRun at h2
  cases s1 with
  | normal =>
    have b2 := hy _ _ _ _ _ h2
    exact ⟨by omega, fun hs => by have := b2.2 hs; omega⟩
  | _ => cases h2; exact ⟨b1.1, b1.2⟩

theorem budget_jump (s : Sig) : Budget (jumpSig s) := budget_tick (by intro n n' s m m' h; cases h; omega)

theorem budget_cond (b : Bool) (s : Sig) : Budget (condSig b s) := by
  refine budget_tick ?_
  intro n n' s m m' h
  obtain ⟨x, m1, _, h2⟩ := bind_ok_inv h
  cases h2
  omega

theorem budget_iterate {body : X} (hb : Budget body) (g : Nat) : Budget (iterate body g) := by
  induction g with
  | zero => intro n n' s m m' h; cases h
  | succ g ih =>
    intro n n' s m m' h
    obtain ⟨⟨s1, n1⟩, m1, h1, h2⟩ := bind_ok_inv h
    have b1 := hb _ _ _ _ _ h1
    cases s1 with
    | normal =>
      have b2 : Budget (tick fun k => iterate body g k) := budget_tick (fun _ _ _ _ _ h => (ih _ _ _ _ _ h).1)
      have b3 := b2 _ _ _ _ _ h2
      exact ⟨by omega, fun hs => by have := b3.2 hs; omega⟩
    | cont =>
      have := ih _ _ _ _ _ h2
      have := b1.2 (by simp)
      omega
    | brk => cases h2; exact ⟨b1.1, fun h => absurd rfl h⟩
    | exit => cases h2; exact b1
    | stop => cases h2; exact b1

theorem exec_budget {w : World} {f : Frame} {ups : Option (List Nat)} (c : Code) : Budget (exec w f ups c) := by
  induction c with
  | nop => intro n n' s m m' h; cases h; exact ⟨Nat.le_refl _, fun h => absurd rfl h⟩
  | instr i =>
    refine budget_tick ?_
    intro n n' s m m' h
    obtain ⟨x, m1, _, h2⟩ := bind_ok_inv h
    cases h2
    omega
  | seq a b ha hb => exact budget_thenRun ha hb
  | skipIf b c hc =>
    refine budget_tick ?_
    intro n n' s m m' h
    obtain ⟨x, m1, _, h2⟩ := bind_ok_inv h
    split at h2
    · cases h2; omega
    · exact (hc _ _ _ _ _ h2).1
  | branch t e ht he =>
    refine budget_tick ?_
    intro n n' s m m' h
    obtain ⟨x, m1, _, h2⟩ := bind_ok_inv h
    split at h2
    · exact (budget_thenRun ht (budget_jump _) _ _ _ _ _ h2).1
    · exact (he _ _ _ _ _ h2).1
  | loop c hc => intro n n' s m m' h; exact budget_iterate hc (n + 1) _ _ _ _ _ h
  | breakIf b => exact budget_cond b _
  | brk => exact budget_jump _
  | cont => exact budget_jump _
  | chain c hc =>
    intro n n' s m m' h
    obtain ⟨⟨s1, n1⟩, m1, h1, h2⟩ := bind_ok_inv h
    have b1 := hc _ _ _ _ _ h1
    unfold endChain at h2
    cases s1 with
    | exit => cases h2; exact ⟨b1.1, fun h => absurd rfl h⟩
    | _ => cases h2; exact b1
  | exitIf b => exact budget_cond b _

theorem bind_congr_ok {α β : Type} {x : V α} {g g' : α → V β} {m : VM}
    (h : ∀ a m1, x m = (.ok a, m1) → g a m1 = g' a m1) : (x >>= g) m = (x >>= g') m := by
  show V.bind x g m = V.bind x g' m
  unfold V.bind
  cases hx : x m with
  | mk o m1 =>
    cases o with
    | ok a => exact h a m1 hx
    | _ => rfl

/-- Bytecode in which structured code is laid out behaves as the structured code: for every step budget, every
frame and every machine, running the bytecode from the first position of the code is executing the code and
going on where it leads.  The equation is between outcomes of every kind, errors, panics and exhausted
budgets included. -/
theorem exec_sound {w : World} {bc : Bytecode} {f : Frame} {ups : Option (List Nat)} (c : Code) {p q tb tc te : Nat}
    (h : Layout bc p q tb tc te c) (n : Nat) :
    loop w n bc f ups p = exec w f ups c n >>= resume w bc f ups q tb tc te := by
  induction c generalizing p q tb tc te n with
  | nop =>
    cases h
    simp only [exec, pure_bind, resume]
  | instr i =>
    obtain ⟨h1, h2⟩ := step_encodes (w := w) (n := n - 1) (f := f) (ups := ups) h
    cases n with
    | zero => rw [loop]; rfl
    | succ n =>
      rw [loop_succ h1]
      simp only [Nat.add_sub_cancel] at h2
      rw [h2]
      simp only [exec, tick, bind_assoc, pure_bind]
      unfold istep
      simp only [bind_assoc, pure_bind]
      congr 1
      funext nx
      cases nx <;> rfl
  | seq a b ha hb =>
    obtain ⟨r, h1, h2⟩ := h
    rw [ha h1]
    simp only [exec, bind_assoc]
    congr 1
    funext x
    obtain ⟨s, k⟩ := x
    cases s with
    | normal => exact hb h2 k
    | _ => rfl
  | skipIf b c hc =>
    obtain ⟨h1, h2⟩ := h
    rw [loop_condJump h1]
    cases n with
    | zero => rfl
    | succ n =>
      simp only [exec, tick, bind_assoc]
      congr 1
      funext x
      by_cases hx : x = b
      · simp only [hx, if_true, pure_bind, resume]
      · simp only [hx, if_false]
        exact hc h2 n
  | branch t e ht he =>
    obtain ⟨r, h1, h2, h3, h4⟩ := h
    rw [loop_condJump (b := false) h1]
    cases n with
    | zero => rfl
    | succ n =>
      simp only [exec, tick, bind_assoc]
      congr 1
      funext x
      cases x with
      | false =>
        simp only [if_true, Bool.false_eq_true, if_false]
        exact he h4 n
      | true =>
        simp only [if_true, Bool.true_eq_false, if_false, bind_assoc]
        rw [ht h2 n]
        congr 1
        funext y
        obtain ⟨s, k⟩ := y
        cases s with
        | normal =>
          show loop w k bc f ups r = _
          rw [loop_jump h3]
          cases k <;> rfl
        | _ => rfl
  | loop c hc =>
    obtain ⟨r, h1, h2, h3⟩ := h
    have key : ∀ (g n : Nat) (m : VM), n < g →
        loop w n bc f ups p m = (iterate (exec w f ups c) g n >>= resume w bc f ups q tb tc te) m := by
      intro g
      induction g with
      | zero => intro n m h; omega
      | succ g ih =>
        intro n m hn
        rw [hc h1 n]
        unfold iterate
        rw [bind_assoc]
        refine bind_congr_ok ?_
        intro x m1 hx
        obtain ⟨s, k⟩ := x
        have hb := exec_budget c _ _ _ _ _ hx
        cases s with
        | normal =>
          show loop w k bc f ups r m1 = _
          rw [loop_jump h2]
          cases k with
          | zero => rfl
          | succ k => exact ih k m1 (by omega)
        | cont =>
          have := hb.2 (by simp)
          exact ih k m1 (by omega)
        | _ => rfl
    funext m
    exact key (n + 1) n m (by omega)
  | breakIf b =>
    obtain ⟨h1, rfl⟩ := h
    rw [loop_condJump h1]
    cases n with
    | zero => rfl
    | succ n =>
      simp only [exec, condSig, tick, bind_assoc, pure_bind]
      congr 1
      funext x
      by_cases hx : x = b
      · simp only [hx, if_true, resume]
      · simp only [hx, if_false, resume]
  | brk =>
    obtain ⟨h1, rfl⟩ := h
    rw [loop_jump h1]
    cases n <;> rfl
  | cont =>
    obtain ⟨h1, rfl⟩ := h
    rw [loop_jump h1]
    cases n <;> rfl
  | chain c hc =>
    rw [hc h n]
    simp only [exec, bind_assoc]
    congr 1
    funext x
    obtain ⟨s, k⟩ := x
    cases s <;> rfl
  | exitIf b =>
    obtain ⟨h1, rfl⟩ := h
    rw [loop_condJump h1]
    cases n with
    | zero => rfl
    | succ n =>
      simp only [exec, condSig, tick, bind_assoc, pure_bind]
      congr 1
      funext x
      by_cases hx : x = b
      · simp only [hx, if_true, resume]
      · simp only [hx, if_false, resume]

end Dice
