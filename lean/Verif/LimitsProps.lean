import Verif.SyntaxFindings
import Verif.Steps
import Verif.ObjectProps
import Verif.BalanceProps

/-!
# C45: counts in the operands of instructions

The operands that count elements, arguments, variables and captures have 8 bits.
-/

namespace Dice

/-! ## Captured variables: never more than the operand can count -/

/-- The function is one of the constants of the bytecode, or of the functions among them, and so on. -/
inductive FnInside (code : Bytecode) : Bytecode → Prop where
  | const {bc : Bytecode} {name : String} {id : Nat} (h : Const.fn code name id ∈ bc.constants) : FnInside code bc
  | deeper {mid bc : Bytecode} {name : String} {id : Nat} (h : Const.fn mid name id ∈ bc.constants) (hm : FnInside code mid) :
      FnInside code bc

theorem FewCaptured.inside {code bc : Bytecode}
    (h : ∀ (code : Bytecode) (name : String) (id : Nat), Const.fn code name id ∈ bc.constants → FewCaptured code)
    (hi : FnInside code bc) : code.upvalueCount ≤ 255 := by
  induction hi with
  | const hm =>
    cases h _ _ _ hm with
    | mk few _ => exact few
  | deeper hm _ ih =>
    cases h _ _ _ hm with
    | mk _ fns => exact ih fns

/-- Programs capture nothing. -/
theorem ProgGen.captures {kind : CompilerKind} {root : Expr} {fn : Ctx} {c : Code} (h : ProgGen kind root fn c) :
    fn.upvalues = [] := by
  have inv : StackInv [fn] := by
    have inv0 : StackInv [({ kind } : Ctx)] := ⟨List.Pairwise.nil, scopeInv_new _, by simp, trivial⟩
    cases h with
    | module h0 h _ => exact (h.rel slotRel (slotRel.addLocal h0 inv0).1).1
    | other _ h => exact (h.rel slotRel inv0).1
  have := inv.2.2.1
  cases hu : fn.upvalues with
  | nil => rfl
  | cons d ds =>
    have := this d (by rw [hu]; exact List.mem_cons_self)
    cases d with
    | parentLocal s m => obtain ⟨p, ps, h, -⟩ := this; cases h
    | outer j m => obtain ⟨p, ps, h, -⟩ := this; cases h

/-- **C45**, captures: in an accepted program no function, nested to any depth, captures more variables than the operands
of an instruction can number. -/
theorem captures_counted_partial {kind : CompilerKind} {root : Expr} {bc code : Bytecode} (h : compile kind root = .ok bc)
    (hi : code = bc ∨ FnInside code bc) : code.upvalueCount ≤ 255 := by
  obtain ⟨fn, c, hp, hc⟩ := compile_gen h
  rcases hi with rfl | hi
  · rw [hc.captured, hp.captures]
    exact Nat.zero_le _
  · exact FewCaptured.inside hc.inner hi

/-- Jump distances of 16 bits and slots of 8 bits, likewise for the functions inside. -/
inductive Sized : Bytecode → Prop where
  | mk {bc : Bytecode} (length : bc.data.length < 32768) (slots : bc.slotCount ≤ 256)
      (fns : ∀ (code : Bytecode) (name : String) (id : Nat), Const.fn code name id ∈ bc.constants → Sized code) :
      Sized bc

/-- For compiled programs the limit on captures in `Fits` holds of itself. -/
theorem compiled_fits {kind : CompilerKind} {root : Expr} {bc : Bytecode} (h : compile kind root = .ok bc) (hs : Sized bc) :
    Fits bc := by
  have key : ∀ code, Sized code → FewCaptured code → Fits code := by
    intro code hs
    induction hs with
    | mk length slots _ ih =>
      intro hf
      cases hf with
      | mk few fns => exact .mk length slots (Nat.le_succ_of_le few) fun c n i hm => ih c n i hm (fns c n i hm)
  obtain ⟨fn, c, hp, hc⟩ := compile_gen h
  exact key bc hs (.mk (by rw [hc.captured, hp.captures]; exact Nat.zero_le _) hc.inner)

/-! ## Elements of lists -/

/-- **C45**, lists: the array that the code of a list literal makes has as many elements as the literal modulo 256. -/
theorem list_count {g g' : Env} {es : List Expr} {c : Code} (hg : Gen g (.expr (.list es)) c g') {w : World} {f : Frame}
    {ups : Option (List Nat)} {m m' : VM} (h : Runs w f ups c m (.done .normal) m') :
    ∃ a p, m'.ptr = p + 1 ∧ m'.mem p = .array a ∧ m'.heap.length a = es.length % 256 := by
  cases hg with
  | chain he => cases he
  | list _ =>
    rw [runs_seq] at h
    rcases h with ⟨-, h⟩ | ⟨m1, -, h⟩
    · exact absurd rfl h
    · obtain ⟨n, ⟨h1, -⟩ | ⟨s, h1, hs⟩⟩ := runs_instr.1 h
      · generalize istep w n f ups _ m1 = q at h1
        obtain ⟨o, _⟩ := q
        cases o <;> cases h1
      · obtain ⟨k, hk⟩ : ∃ k, k = es.length % 256 := ⟨_, rfl⟩
        rw [← hk]
        have hop : operand (Instr.num .createArray es.length).operands 0 m1 = (.ok k, m1) := by
          rw [hk]
          show (Outcome.ok (UInt8.ofNat es.length).toNat, m1) = _
          rw [UInt8.toNat_ofNat']
        have hstep : istep w n f ups (.num .createArray es.length) m1 =
            (popCount k >>= fun items => onHeap (fun h => h.newArray items) >>= fun a => push a >>= fun _ =>
              pure Sig.normal) m1 := by
          unfold istep
          show (step w (callsAt w n) (Instr.num .createArray es.length).operands f ups .createArray 0 >>= _) m1 = _
          unfold step
          dsimp only
          simp only [bind_assoc, pure_bind]
          rw [bind_ok hop]
          rfl
        by_cases hp : k ≤ m1.ptr ∧ m1.ptr ≤ maxStack
        · by_cases hlt : m1.ptr - k < maxStack
          · obtain ⟨m2, e1, e2, e3, -, e4, -⟩ := createArray_elements w (callsAt w n) (Instr.num .createArray es.length).operands f
              ups 0 (p := m1.ptr - k) hop (by omega) (by omega) hlt
            have : istep w n f ups (.num .createArray es.length) m1 = (.ok (Next.sig (.goto (0 + 1))), m2) := by
              unfold istep
              exact (bind_ok e1).trans rfl
            rw [this] at h1
            cases h1
            exact ⟨_, _, e2, e3, e4⟩
          · rw [hstep] at h1
            have hk0 : k = 0 := by omega
            subst hk0
            have hpc : popCount 0 m1 = (.ok (memRange m1.mem (m1.ptr - 0) 0),
                { m1 with mem := memClear m1.mem (m1.ptr - 0) m1.ptr, ptr := m1.ptr - 0 }) := by
              unfold popCount; exact if_pos hp
            rw [bind_ok hpc] at h1
            have hnew : ∀ items m2, onHeap (fun h => h.newArray items) m2 =
                (.ok (m2.heap.newArray items).1, { m2 with heap := (m2.heap.newArray items).2 }) := fun _ _ => rfl
            rw [bind_ok (hnew _ _), bind_panic (m' := _) (s := "index out of bounds")
              (by unfold push; exact if_neg (by show ¬ m1.ptr - 0 < maxStack; omega))] at h1
            cases h1
        · rw [hstep, bind_panic (show popCount k m1 = (.panic "index out of bounds", m1) by unfold popCount; exact if_neg hp)] at h1
          cases h1

/-- So the count is right exactly up to 255 elements. -/
theorem list_count_partial {g g' : Env} {es : List Expr} {c : Code} (hg : Gen g (.expr (.list es)) c g') {w : World} {f : Frame}
    {ups : Option (List Nat)} {m m' : VM} (h : Runs w f ups c m (.done .normal) m') :
    (∃ a p, m'.ptr = p + 1 ∧ m'.mem p = .array a ∧ m'.heap.length a = es.length) ↔ es.length ≤ 255 := by
  obtain ⟨a, p, h1, h2, h3⟩ := list_count hg h
  constructor
  · rintro ⟨a', p', h1', h2', h3'⟩
    obtain rfl : p' = p := by omega
    rw [h2] at h2'
    cases h2'
    rw [h3] at h3'
    have := Nat.mod_lt es.length (show 0 < 256 by decide)
    omega
  · intro hl
    exact ⟨a, p, h1, h2, by rw [h3, Nat.mod_eq_of_lt (by omega)]⟩

namespace Findings

/-! ## Arguments of calls -/

open Grammar

/-- A call with 256 arguments of a function that ignores its arguments. -/
def longCall : Tree := .call (.fn [] (.leaf [one] (.int 1))) 256 fun _ => .leaf [one] (.int 1)

theorem longCall_named : longCall.Named := by
  have h : ∀ u ∈ [one], Spelled u := fun u hu => integer_spelled (by cases List.mem_singleton.1 hu; exact List.mem_cons_self)
  exact ⟨⟨fun _ hp => (nomatch hp), h⟩, fun _ => h⟩

/-- A call with 256 arguments is compiled to a call of the last argument without arguments. -/
theorem call_arguments_truncated : Fails false longCall.text .assertFunction 257 :=
  fails (print_parse_text _ ⟨⟨by decide, one_writes⟩, fun _ => one_writes⟩ longCall_named) (by decide +kernel)

/-! ## Variables of a function -/

/-- A function with the parameters `x0` to `x254` and two variables that gives `x0`, called with 255 times `null`. -/
def manyVariables : Expr :=
  .call (.anonFn ((List.range 255).map fun i => ⟨s!"x{i}", none⟩) none
      (.block [.varDecl (.singular "y") false (.int 0) none, .varDecl (.singular "z") false (.int 1) none] (some (.ident "x0"))))
    (List.replicate 255 .null)

/-- The second variable, in slot 257, overwrites the first parameter, in slot 1. -/
theorem variables_truncated : ∃ bc m, compile .script manyVariables = .ok bc ∧
    run (world false) 2000 bc machine = (.ok (.int 1), m) := by
  have h : check false manyVariables (isOk (.int 1) 0) = true := by decide +kernel
  unfold check at h
  cases hc : compile .script manyVariables with
  | error _ => rw [hc] at h; cases h
  | ok bc =>
    rw [hc] at h
    dsimp only at h
    cases hr : run (world false) 2000 bc machine with
    | mk o m =>
      rw [hr] at h
      refine ⟨bc, m, rfl, ?_⟩
      cases o with
      | ok v =>
        simp only [isOk, Bool.and_eq_true] at h
        rw [← same_eq h.1]
        exact hr
      | _ => cases h

end Findings

/-! ## The hypotheses can be met -/

/-- A function down to `d` levels inside captures `n` variables. -/
def capturesInside (n : Nat) : Nat → Bytecode → Bool
  | 0, _ => false
  | d + 1, bc => bc.constants.any fun
    | .fn code _ _ => code.upvalueCount == n || capturesInside n d code
    | _ => false

theorem capturesInside_sound {n d : Nat} {bc : Bytecode} (h : capturesInside n d bc = true) :
    ∃ code, FnInside code bc ∧ code.upvalueCount = n := by
  induction d generalizing bc with
  | zero => cases h
  | succ d ih =>
    obtain ⟨c, hc, h⟩ := List.any_eq_true.1 h
    cases c with
    | fn code name id =>
      simp only [Bool.or_eq_true, beq_iff_eq] at h
      rcases h with h | h
      · exact ⟨code, .const hc, h⟩
      · obtain ⟨code', h1, h2⟩ := ih h
        exact ⟨code', .deeper hc h1, h2⟩
    | _ => cases h

/-- The function inside the function in `|x| || x` captures a variable. -/
example : ∃ bc code, compile .script (.anonFn [⟨"x", none⟩] none (.anonFn [] none (.ident "x"))) = .ok bc ∧ FnInside code bc ∧
    code.upvalueCount = 1 := by
  have h : (compile .script (.anonFn [⟨"x", none⟩] none (.anonFn [] none (.ident "x")))).toOption.any (capturesInside 1 2) = true := by
    decide +kernel
  cases hc : compile .script (.anonFn [⟨"x", none⟩] none (.anonFn [] none (.ident "x"))) with
  | error _ => rw [hc] at h; cases h
  | ok bc =>
    rw [hc] at h
    obtain ⟨code, h1, h2⟩ := capturesInside_sound h
    exact ⟨bc, code, rfl, h1, h2⟩

/-- The literal `[1, null]` makes a list of two elements, on any machine with room. -/
example {g : Env} : Gen g (.expr (.list [.int 1, .null]))
    (.seq (.seq (intCode 1) (.seq (.op .pushNull) .nop)) (.num .createArray [Expr.int 1, .null].length)) g :=
  .list (.itemsCons .int (.itemsCons .null .itemsNil))

end Dice
