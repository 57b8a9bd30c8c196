import Verif.GenShape

/-!
# Running compiled programs

The machine on the bytecode of a compiled program or function does what the structured code of its source
does.
-/

namespace Dice

/-- A signal the flags allow. -/
def Sig.allowed (lp ct ch : Bool) : Sig → Prop
  | .brk => lp = true
  | .cont => ct = true
  | .exit => ch = true
  | _ => True

/-- Only the signals a code is scoped for come out of it. -/
theorem exec_signals {w : World} {f : Frame} {ups : Option (List Nat)} {c : Code} {lp ct ch : Bool}
    (h : Scoped lp ct ch c) {n k : Nat} {s : Sig} {m m' : VM} (he : exec w f ups c n m = (.ok (s, k), m')) :
    s.allowed lp ct ch := by
  have tk : ∀ {x : Nat → V (Sig × Nat)} {n : Nat} {m m' : VM} {s : Sig} {k : Nat}, tick x n m = (.ok (s, k), m') →
      ∃ n', x n' m = (.ok (s, k), m') := by
    intro x n m m' s k h
    cases n with
    | zero => cases h
    | succ n => exact ⟨n, h⟩
  induction c generalizing lp ct ch n k s m m' with
  | nop => cases he; trivial
  | instr i =>
    obtain ⟨n', h1⟩ := tk he
    obtain ⟨s1, m1, h2, h3⟩ := bind_ok_inv h1
    obtain ⟨nx, m2, h4, h5⟩ := bind_ok_inv h2
    cases h5
    cases h3
    cases nx <;> trivial
  | seq a b iha ihb =>
    obtain ⟨⟨s1, k1⟩, m1, h1, h2⟩ := bind_ok_inv he
    have := iha h.1 h1
    unfold thenRun at h2
    cases s1 with
    | normal => exact ihb h.2 h2
    | _ => cases h2; exact this
  | skipIf b c ih =>
    obtain ⟨n', h1⟩ := tk he
    obtain ⟨x, m1, h2, h3⟩ := bind_ok_inv h1
    split at h3
    · cases h3; trivial
    · exact ih h h3
  | branch t e iht ihe =>
    obtain ⟨n', h1⟩ := tk he
    obtain ⟨x, m1, h2, h3⟩ := bind_ok_inv h1
    split at h3
    · obtain ⟨⟨s1, k1⟩, m2, h4, h5⟩ := bind_ok_inv h3
      have := iht h.1 h4
      unfold thenRun at h5
      cases s1 with
      | normal =>
        obtain ⟨n2, h6⟩ := tk h5
        cases h6
        trivial
      | _ => cases h5; exact this
    · exact ihe h.2 h3
  | loop c ih =>
    have key : ∀ g n m, iterate (exec w f ups c) g n m = (.ok (s, k), m') → s.allowed lp ct ch := by
      intro g
      induction g with
      | zero => intro n m h; cases h
      | succ g ihg =>
        intro n m hi
        obtain ⟨⟨s1, k1⟩, m1, h1, h2⟩ := bind_ok_inv hi
        have a := ih (lp := true) (ct := true) (ch := ch) h h1
        cases s1 with
        | normal =>
          simp only at h2
          obtain ⟨n2, h6⟩ := tk h2
          exact ihg _ _ h6
        | cont => exact ihg _ _ h2
        | brk => cases h2; trivial
        | exit => cases h2; exact a
        | stop => cases h2; trivial
    exact key _ _ _ he
  | breakIf b =>
    obtain ⟨n', h1⟩ := tk he
    obtain ⟨x, m1, h2, h3⟩ := bind_ok_inv h1
    cases h3
    split
    · exact h
    · trivial
  | brk => obtain ⟨n', h1⟩ := tk he; cases h1; exact h
  | cont => obtain ⟨n', h1⟩ := tk he; cases h1; exact h
  | chain c ih =>
    obtain ⟨⟨s1, k1⟩, m1, h1, h2⟩ := bind_ok_inv he
    have a := ih (lp := lp) (ct := ct) (ch := true) h h1
    unfold endChain at h2
    cases s1 with
    | exit => cases h2; trivial
    | _ => cases h2; exact a
  | exitIf b =>
    obtain ⟨n', h1⟩ := tk he
    obtain ⟨x, m1, h2, h3⟩ := bind_ok_inv h1
    cases h3
    split
    · exact h
    · trivial

/-- The end of a function or program: falling off the end needs one more look at the bytecode. -/
def endRun (r : Sig × Nat) : V Unit :=
  match r with
  | (.stop, _) => pure ()
  | (_, 0) => V.timeout
  | (_, _ + 1) => pure ()

theorem loop_end {w : World} {bc : Bytecode} {f : Frame} {ups : Option (List Nat)} (n : Nat) :
    loop w n bc f ups bc.data.length = endRun (.normal, n) := by
  cases n with
  | zero => rw [loop]; rfl
  | succ n =>
    rw [loop]
    have : fetch bc bc.data.length = pure none := by
      unfold fetch readInstruction
      rw [List.getElem?_eq_none (Nat.le_refl _)]
      rfl
    rw [this]
    rfl

/-- Scoped code that fills a bytecode runs to its end. -/
theorem loop_scoped {w : World} {bc : Bytecode} {f : Frame} {ups : Option (List Nat)} {c : Code}
    (hl : Layout bc 0 bc.data.length 0 0 0 c) (hs : Scoped false false false c) (n : Nat) :
    loop w n bc f ups 0 = exec w f ups c n >>= endRun := by
  rw [exec_sound c hl n]
  funext m
  refine bind_congr_ok ?_
  rintro ⟨s, k⟩ m1 h
  have := exec_signals hs h
  cases s with
  | normal => exact congrFun (loop_end k) m1
  | stop => rfl
  | brk => cases this
  | cont => cases this
  | exit => cases this

theorem pushFn_shape (k : CompilerKind) (g : Env) :
    (g.pushFn k).shape.inLoop = false ∧ (g.pushFn k).shape.canContinue = false ∧
      (g.pushFn k).shape.topCalls = some 0 := ⟨rfl, rfl, rfl⟩

/-- The code of a function body breaks, continues and exits only inside itself. -/
theorem Gen.fn_scoped {g g' : Env} {k : CompilerKind} {fk : FnKind} {args : List FnArg} {es : List Expr}
    {t : Option Expr} {c : Code} (h : Gen (g.pushFn k) (.fnBody fk args es t) c g') : Scoped false false false c := by
  obtain ⟨e1, e2, e3⟩ := pushFn_shape k g
  have := (h.scoped (by simp)).plain e3
  unfold Nesting.allowsPlain at this
  rwa [e1, e2] at this

theorem ProgGen.scoped {kind : CompilerKind} {root : Expr} {fn : Ctx} {c : Code} (h : ProgGen kind root fn c) :
    Scoped false false false c := by
  cases h with
  | module h0 h hv =>
    cases h0
    exact ⟨(h.scoped (by simp)).plain rfl, trivial, trivial, trivial⟩
  | other hk h => exact (h.scoped (by simp)).plain rfl

/-- The body of a function run by the machine: its structured code. -/
theorem fn_run {g g' : Env} {k : CompilerKind} {fk : FnKind} {args : List FnArg} {es : List Expr}
    {t : Option Expr} {c : Code} {fn : Ctx} {bc : Bytecode}
    (h : Gen (g.pushFn k) (.fnBody fk args es t) c g') (hc : FnCode fn c bc) (hf : Fits bc) (w : World) (f : Frame)
    (ups : Option (List Nat)) (n : Nat) : loop w n bc f ups 0 = exec w f ups c n >>= endRun :=
  loop_scoped (hc.layout hf) h.fn_scoped n

/-- Running a compiled program, whatever the world and the step budget, is running the structured code of its
source. -/
theorem compiled_run {kind : CompilerKind} {root : Expr} {bc : Bytecode} (h : compile kind root = .ok bc)
    (hf : Fits bc) :
    ∃ fn c, ProgGen kind root fn c ∧ bc.slotCount = fn.scopes.slotCount ∧
      ∀ (w : World) (f : Frame) (ups : Option (List Nat)) (n : Nat),
        loop w n bc f ups 0 = exec w f ups c n >>= endRun := by
  obtain ⟨fn, c, hp, hc⟩ := compile_gen h
  exact ⟨fn, c, hp, hc.slots, fun w f ups n => loop_scoped (hc.layout hf) hp.scoped n⟩

end Dice
