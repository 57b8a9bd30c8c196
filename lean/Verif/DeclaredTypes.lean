import Verif.SimCall
import Verif.ErrorProps
import Verif.TypeProps

/-!
# Declared types are enforced (C48), for compiled functions

`TypeProps` is about the instructions that check types; here are the functions that the compiler makes.  Their
code checks every annotated parameter before the body (`parameters_checked`), and whatever way it is left, the
result is checked (`result_checked`, `call_result_conforms`).
-/

namespace Dice

/-- The error for a value that does not conform. -/
def typeError (v : Value) : RtErr := if v.isNull then .assertNull else .assertType

/-- A check of a variable: its slot, its annotation, and the instruction that reads the name of the type. -/
structure Check where
  slot : Nat
  type_ : TypeAnn
  load : Instr

/-- Reads the named types one after the other and compares the variables with them. -/
inductive Checked (w : World) (f : Frame) (ups : Option (List Nat)) : List Check → VM → Res → VM → Prop where
  | nil {m : VM} : Checked w f ups [] m (.done .normal) m
  /-- The name of the type cannot be read. -/
  | unread {p : Check} {ps : List Check} {m m' : VM} {r : Res} (h : Runs w f ups (.instr p.load) m r m')
      (hr : r ≠ .done .normal) : Checked w f ups (p :: ps) m r m'
  /-- The name does not denote a class. -/
  | noClass {p : Check} {ps : List Check} {m m1 : VM} {v : Value} (h : Runs w f ups (.instr p.load) m (.done .normal) m1)
      (hv : m1.Top v) (hc : ∀ c, v ≠ .cls c) : Checked w f ups (p :: ps) m (.err .invalidClass) m1.drop
  /-- The value of the variable does not conform. -/
  | violated {p : Check} {ps : List Check} {m m1 : VM} {c : Nat} (h : Runs w f ups (.instr p.load) m (.done .normal) m1)
      (hv : m1.Top (.cls c)) (hc : ¬ Conforms w m.heap p.type_.isNullable c (m.mem (f.start + p.slot))) :
      Checked w f ups (p :: ps) m (.err (typeError (m.mem (f.start + p.slot)))) m1.drop
  /-- The value of the variable conforms. -/
  | conforms {p : Check} {ps : List Check} {m m1 m' : VM} {r : Res} {c : Nat}
      (h : Runs w f ups (.instr p.load) m (.done .normal) m1) (hv : m1.Top (.cls c))
      (hc : Conforms w m.heap p.type_.isNullable c (m.mem (f.start + p.slot))) (hr : Checked w f ups ps m1.drop r m') :
      Checked w f ups (p :: ps) m r m'

/-- The annotated parameters with their slots. -/
def annotated : Nat → List FnArg → List (Nat × TypeAnn)
  | _, [] => []
  | k, a :: rest => (match a.type_ with | some t => [(k, t)] | none => []) ++ annotated (k + 1) rest

section
variable {w : World} {f : Frame} {ups : Option (List Nat)} {m m' m1 : VM} {r : Res}

/-! ## Reading a name -/

open Sim (Reads bind_done reads_operand reads_frameGet reads_upvalueAt reads_readCell reads_symbol reads_global)

/-- A computation that pushes one value, or does not finish. -/
def Pushes (y : V Sig) : Prop := ∀ m s m', y m = (.ok s, m') → s = .normal ∧ m.ptr < maxStack ∧ ∃ v, m' = m.pushed v

theorem pushes_of {α : Type} {y : V α} {k : α → V Sig} (h : Reads y) (hk : ∀ b, Pushes (k b)) : Pushes (y >>= k) := by
  intro m s m' he
  obtain ⟨b, m1, h1, h2⟩ := bind_done he
  cases h _ _ _ h1
  exact hk b _ _ _ h2

theorem pushes_push (v : Value) {k : Unit → V Sig} (hk : ∀ m, k () m = (.ok .normal, m)) : Pushes (push v >>= k) := by
  intro m s m' he
  obtain ⟨b, m1, h1, h2⟩ := bind_done he
  unfold push at h1
  split at h1
  · rename_i hlt
    cases h1
    rw [hk] at h2
    cases h2
    exact ⟨rfl, hlt, v, rfl⟩
  · cases h1

theorem bind_assocV {α β γ : Type} (x : V α) (k : α → V β) (l : β → V γ) : (x >>= k) >>= l = x >>= fun a => k a >>= l := by
  funext m
  show V.bind (V.bind x k) l m = V.bind x (fun a => V.bind (k a) l) m
  unfold V.bind
  cases x m with
  | mk o m1 => cases o <;> rfl

theorem load_pushes {g g' : Env} {x : String} {i : Instr} (h : IdentGen g x i g') (n : Nat) : Pushes (istep w n f ups i) := by
  cases h with
  | «local» =>
    show Pushes ((operand _ _ >>= fun s => frameGet f s >>= fun v => push v >>= fun _ => pure (Next.goto _)) >>= fun nx => pure nx.sig)
    rw [bind_assocV]
    refine pushes_of (reads_operand _ _) fun s => ?_
    rw [bind_assocV]
    refine pushes_of (reads_frameGet f s) fun v => ?_
    rw [bind_assocV]
    exact pushes_push v fun m => rfl
  | captured =>
    show Pushes ((operand _ _ >>= fun s => upvalueAt ups s >>= fun a => readCell a >>= fun v => push v >>= fun _ => pure (Next.goto _)) >>= fun nx => pure nx.sig)
    rw [bind_assocV]
    refine pushes_of (reads_operand _ _) fun s => ?_
    rw [bind_assocV]
    refine pushes_of (reads_upvalueAt ups s) fun a => ?_
    rw [bind_assocV]
    refine pushes_of (reads_readCell a) fun v => ?_
    rw [bind_assocV]
    exact pushes_push v fun m => rfl
  | global =>
    show Pushes ((symbolOperand _ _ >>= fun s => (globalValue s >>= fun v => push v) >>= fun _ => pure (Next.goto _)) >>= fun nx => pure nx.sig)
    rw [bind_assocV]
    refine pushes_of (reads_symbol _ _) fun s => ?_
    rw [bind_assocV, bind_assocV]
    refine pushes_of (reads_global s) fun v => ?_
    exact pushes_push v fun m => rfl

/-- Reading a name pushes one value and does nothing else. -/
theorem load_runs {g g' : Env} {x : String} {i : Instr} (h : IdentGen g x i g') {s : Sig}
    (hr : Runs w f ups (.instr i) m (.done s) m1) : s = .normal ∧ m.ptr < maxStack ∧ ∃ v, m1 = m.pushed v := by
  obtain ⟨n, h1, h2⟩ := hr
  cases he : exec w f ups (.instr i) n m with
  | mk o m2 =>
    rw [he] at h1 h2
    cases o with
    | ok a =>
      obtain ⟨s', k⟩ := a
      cases h1
      cases h2
      obtain ⟨j, hj⟩ := Sim.exec_instr_ok he
      exact load_pushes h j _ _ _ hj
    | _ => cases h1

/-! ## The check of a variable -/

theorem conforms_error (hi : HeapInv m.heap) (nullable : Bool) (c : Nat) (v : Value) (h : ¬ Conforms w m.heap nullable c v) :
    assertTypeOf w nullable c v m = (.err (typeError v), m) := by
  obtain ⟨e, he, h2⟩ := (assertTypeOf_iff (w := w) hi nullable c v).2 h
  rw [h2]
  unfold assertTypeOf at h2
  unfold typeError
  by_cases hv : v.isNull = true
  · rw [if_pos hv] at h2 ⊢
    split at h2 <;> cases h2
    rfl
  · rw [if_neg hv] at h2 ⊢
    unfold assertType at h2
    split at h2 <;> cases h2
    rfl

theorem istep_localCheck {u : Value} (n slot : Nat) (nullable : Bool) (hb : m.ptr < maxStack) (hs : slot < 256)
    (hf : f.stop ≤ m.ptr) (hl : f.start + slot < f.stop) :
    istep w n f ups (.num (localCheck nullable) slot) (m.pushed u) =
      (asClass u >>= fun c => assertTypeOf w nullable c (m.mem (f.start + slot)) >>= fun _ => pure Sig.normal) (m.wipe 1) := by
  have key : (pop >>= fun u => asClass u >>= fun c => operand (Instr.num (localCheck nullable) slot).operands 0 >>= fun s =>
      frameGet f s >>= fun v => assertTypeOf w nullable c v >>= fun _ => pure Sig.normal) (m.pushed u) =
      (asClass u >>= fun c => assertTypeOf w nullable c (m.mem (f.start + slot)) >>= fun _ => pure Sig.normal) (m.wipe 1) := by
    rw [bind_ok (pop_top (VM.top_pushed u hb)), VM.drop_pushed]
    have hm : (m.wipe 1).mem (f.start + slot) = m.mem (f.start + slot) := by
      show memClear _ _ _ _ = _
      unfold memClear
      rw [if_neg (by omega)]
    cases hc : asClass u (m.wipe 1) with
    | mk o m2 =>
      cases o with
      | ok c =>
        cases Sim.reads_asClass u _ _ _ hc
        rw [bind_ok hc, bind_ok hc, bind_ok (Sim.operand_num _ hs _), bind_ok (frameGet_eval (by omega) hl), hm]
      | err e => rw [bind_err hc, bind_err hc]
      | panic e => rw [bind_panic hc, bind_panic hc]
      | timeout => rw [bind_timeout hc, bind_timeout hc]
  rw [← key]
  unfold istep
  cases nullable
  all_goals
    show ((pop >>= fun u => asClass u >>= fun c => operand _ 0 >>= fun s => frameGet f s >>= fun v => assertTypeOf w _ c v >>= fun _ =>
      pure (Next.goto 1)) >>= fun nx => pure nx.sig) (m.pushed u) = _
    simp only [bind_assocV]
    rfl

theorem istep_returnCheck {u v : Value} (n : Nat) (nullable : Bool) (hb : m.ptr < maxStack) (hv : m.Top v) :
    istep w n f ups (.op (returnCheck nullable)) (m.pushed u) =
      (asClass u >>= fun c => assertTypeOf w nullable c v >>= fun _ => pure Sig.stop) (m.wipe 1) := by
  have key : (pop >>= fun u => asClass u >>= fun c => peek 0 >>= fun v => assertTypeOf w nullable c v >>= fun _ => pure Sig.stop) (m.pushed u) =
      (asClass u >>= fun c => assertTypeOf w nullable c v >>= fun _ => pure Sig.stop) (m.wipe 1) := by
    rw [bind_ok (pop_top (VM.top_pushed u hb)), VM.drop_pushed]
    cases hc : asClass u (m.wipe 1) with
    | mk o m2 =>
      cases o with
      | ok c =>
        cases Sim.reads_asClass u _ _ _ hc
        rw [bind_ok hc, bind_ok hc, bind_ok (peek_top (VM.top_wipe hv 1))]
      | err e => rw [bind_err hc, bind_err hc]
      | panic e => rw [bind_panic hc, bind_panic hc]
      | timeout => rw [bind_timeout hc, bind_timeout hc]
  rw [← key]
  unfold istep
  cases nullable
  all_goals
    show ((pop >>= fun u => asClass u >>= fun c => peek 0 >>= fun v => assertTypeOf w _ c v >>= fun _ =>
      pure Next.stop) >>= fun nx => pure nx.sig) (m.pushed u) = _
    simp only [bind_assocV]
    rfl

theorem asClass_no {u : Value} (h : ∀ c, u ≠ .cls c) (m : VM) : asClass u m = (.err .invalidClass, m) := by
  unfold asClass
  split
  · exact absurd rfl (h _)
  · rfl

/-- The check of one variable. -/
theorem runs_localCheck {u : Value} {slot : Nat} {nullable : Bool} (hi : HeapInv m.heap) (hb : m.ptr < maxStack) (hs : slot < 256)
    (hf : f.stop ≤ m.ptr) (hl : f.start + slot < f.stop) :
    Runs w f ups (.num (localCheck nullable) slot) (m.pushed u) r m' ↔
      m' = m.wipe 1 ∧ (((∀ c, u ≠ .cls c) ∧ r = .err .invalidClass) ∨
        ∃ c, u = .cls c ∧ ((Conforms w m.heap nullable c (m.mem (f.start + slot)) ∧ r = .done .normal) ∨
          (¬ Conforms w m.heap nullable c (m.mem (f.start + slot)) ∧ r = .err (typeError (m.mem (f.start + slot)))))) := by
  rw [Code.num]
  have e := fun n => istep_localCheck (w := w) (ups := ups) (u := u) n slot nullable hb hs hf hl
  by_cases hu : ∃ c, u = .cls c
  · obtain ⟨c, rfl⟩ := hu
    by_cases hc : Conforms w m.heap nullable c (m.mem (f.start + slot))
    · rw [runs_det (s := .normal) (m1 := m.wipe 1) fun n => (e n).trans ((bind_ok (x := asClass (.cls c)) rfl).trans
        (bind_ok ((assertTypeOf_iff (w := w) (m := m.wipe 1) hi nullable c _).1 hc)))]
      simp [hc, and_comm]
    · rw [runs_det_err (m1 := m.wipe 1) fun n => (e n).trans ((bind_ok (x := asClass (.cls c)) rfl).trans
        (bind_err (conforms_error (m := m.wipe 1) hi nullable c _ hc)))]
      simp [hc, and_comm]
  · have hn : ∀ c, u ≠ .cls c := fun c h => hu ⟨c, h⟩
    rw [runs_det_err (m1 := m.wipe 1) fun n => (e n).trans (bind_err (asClass_no hn _))]
    constructor
    · rintro ⟨rfl, rfl⟩
      exact ⟨rfl, .inl ⟨hn, rfl⟩⟩
    · rintro ⟨rfl, ⟨-, rfl⟩ | ⟨c, rfl, -⟩⟩
      · exact ⟨rfl, rfl⟩
      · exact absurd rfl (hn c)

/-- The check of a result. -/
theorem runs_returnCheck {u v : Value} {nullable : Bool} (hi : HeapInv m.heap) (hb : m.ptr < maxStack) (hv : m.Top v) :
    Runs w f ups (.op (returnCheck nullable)) (m.pushed u) r m' ↔
      m' = m.wipe 1 ∧ (((∀ c, u ≠ .cls c) ∧ r = .err .invalidClass) ∨
        ∃ c, u = .cls c ∧ ((Conforms w m.heap nullable c v ∧ r = .done .stop) ∨
          (¬ Conforms w m.heap nullable c v ∧ r = .err (typeError v)))) := by
  rw [Code.op]
  have e := fun n => istep_returnCheck (w := w) (f := f) (ups := ups) (u := u) n nullable hb hv
  by_cases hu : ∃ c, u = .cls c
  · obtain ⟨c, rfl⟩ := hu
    by_cases hc : Conforms w m.heap nullable c v
    · rw [runs_det (s := .stop) (m1 := m.wipe 1) fun n => (e n).trans ((bind_ok (x := asClass (.cls c)) rfl).trans
        (bind_ok ((assertTypeOf_iff (w := w) (m := m.wipe 1) hi nullable c _).1 hc)))]
      simp [hc, and_comm]
    · rw [runs_det_err (m1 := m.wipe 1) fun n => (e n).trans ((bind_ok (x := asClass (.cls c)) rfl).trans
        (bind_err (conforms_error (m := m.wipe 1) hi nullable c _ hc)))]
      simp [hc, and_comm]
  · have hn : ∀ c, u ≠ .cls c := fun c h => hu ⟨c, h⟩
    rw [runs_det_err (m1 := m.wipe 1) fun n => (e n).trans (bind_err (asClass_no hn _))]
    constructor
    · rintro ⟨rfl, rfl⟩
      exact ⟨rfl, .inl ⟨hn, rfl⟩⟩
    · rintro ⟨rfl, ⟨-, rfl⟩ | ⟨c, rfl, -⟩⟩
      · exact ⟨rfl, rfl⟩
      · exact absurd rfl (hn c)

theorem VM.drop_load {v : Value} : (m.pushed v).drop = m.wipe 1 := VM.drop_pushed m v

/-- Reading a type and comparing a variable with it, before more code. -/
theorem runs_check {g g' : Env} {t : TypeAnn} {i : Instr} {slot : Nat} {b : Code} (h : IdentGen g t.name i g') (hi : HeapInv m.heap)
    (hs : slot < 256) (hf : f.stop ≤ m.ptr) (hl : f.start + slot < f.stop) {ps : List Check}
    (hb : ∀ r m', Runs w f ups b (m.wipe 1) r m' ↔ Checked w f ups ps (m.wipe 1) r m') :
    Runs w f ups (.seq (.seq (.instr i) (.num (localCheck t.isNullable) slot)) b) m r m' ↔
      Checked w f ups (⟨slot, t, i⟩ :: ps) m r m' := by
  rw [runs_seq]
  constructor
  · rintro (⟨h1, hr⟩ | ⟨m2, h1, h2⟩)
    · rcases runs_seq.1 h1 with ⟨h1, h3⟩ | ⟨m1, h3, h4⟩
      · exact .unread h1 h3
      · obtain ⟨-, hm, v, rfl⟩ := load_runs h h3
        obtain ⟨rfl, ⟨hu, rfl⟩ | ⟨c, rfl, ⟨-, rfl⟩ | ⟨hc, rfl⟩⟩⟩ := (runs_localCheck hi hm hs hf hl).1 h4
        · rw [← VM.drop_load (v := v)]
          exact .noClass h3 (VM.top_pushed v hm) hu
        · exact absurd rfl hr
        · rw [← VM.drop_load (v := .cls c)]
          exact .violated (p := ⟨slot, t, i⟩) h3 (VM.top_pushed _ hm) hc
    · rcases runs_seq.1 h1 with ⟨h1, h3⟩ | ⟨m1, h3, h4⟩
      · exact absurd rfl h3
      · obtain ⟨-, hm, v, rfl⟩ := load_runs h h3
        obtain ⟨rfl, ⟨hu, hr⟩ | ⟨c, rfl, ⟨hc, -⟩ | ⟨-, hr⟩⟩⟩ := (runs_localCheck hi hm hs hf hl).1 h4
        · cases hr
        · refine .conforms (p := ⟨slot, t, i⟩) h3 (VM.top_pushed _ hm) hc ?_
          rw [VM.drop_load]
          exact (hb _ _).1 h2
        · cases hr
  · intro hc
    cases hc with
    | unread h1 hr => exact then_left (runs_seq.2 (then_left h1 hr)) hr
    | noClass h1 hv hu =>
      obtain ⟨-, hm, v, rfl⟩ := load_runs h h1
      cases hv.unique (VM.top_pushed v hm)
      rw [VM.drop_load]
      exact then_left (runs_seq.2 (then_right h1 ((runs_localCheck hi hm hs hf hl).2 ⟨rfl, .inl ⟨hu, rfl⟩⟩))) (by simp)
    | @violated _ _ _ _ c h1 hv hc =>
      obtain ⟨-, hm, v, rfl⟩ := load_runs h h1
      cases hv.unique (VM.top_pushed v hm)
      rw [VM.drop_load]
      exact then_left (runs_seq.2 (then_right h1 ((runs_localCheck hi hm hs hf hl).2 ⟨rfl, .inr ⟨c, rfl, .inr ⟨hc, rfl⟩⟩⟩))) (by simp)
    | @conforms _ _ _ _ _ _ c h1 hv hc hr =>
      obtain ⟨-, hm, v, rfl⟩ := load_runs h h1
      cases hv.unique (VM.top_pushed v hm)
      rw [VM.drop_load] at hr
      exact then_right (runs_seq.2 (then_right h1 ((runs_localCheck hi hm hs hf hl).2 ⟨rfl, .inr ⟨c, rfl, .inl ⟨hc, rfl⟩⟩⟩)))
        ((hb _ _).2 hr)

end

theorem params_checked {g g' : Env} {args : List FnArg} {c : Code} (hp : ParamsGen g args c g') (inv : StackInv g)
    (hroom : g.vars.length + args.length ≤ 256) :
    ∃ ps : List Check, ps.map (fun p => (p.slot, p.type_)) = annotated g.vars.length args ∧
      (∀ p ∈ ps, ∃ g1 g2, IdentGen g1 p.type_.name p.load g2) ∧
      ∀ (w : World) (f : Frame) (ups : Option (List Nat)) (m : VM), HeapInv m.heap → f.stop ≤ m.ptr →
        f.start + (g.vars.length + args.length) ≤ f.stop → ∀ r m', Runs w f ups c m r m' ↔ Checked w f ups ps m r m' := by
  induction hp with
  | nil =>
    refine ⟨[], rfl, by simp, fun w f ups m _ _ _ r m' => ?_⟩
    rw [runs_nop]
    constructor
    · rintro ⟨rfl, rfl⟩; exact .nil
    · intro h; cases h; exact ⟨rfl, rfl⟩
  | @cons g g1 g2 g3 a rest slot c1 c2 hl ht hr ih =>
    obtain ⟨rfl, hv⟩ := addLocal_vars inv hl
    have inv1 := ((Sim.stepRel.addLocal hl).2.1 inv).1
    have hv2 : g2.vars.length = g.vars.length + 1 := by rw [ht.vars, hv]; simp
    obtain ⟨ps, h1, h2, h3⟩ := ih ((ht.rel Sim.stepRel).2.1 inv1).1 (by simp only [List.length_cons] at hroom; omega)
    rw [hv2] at h1 h3
    simp only [List.length_cons] at hroom
    generalize hty : a.type_ = ty at ht
    cases ht with
    | none =>
      refine ⟨ps, ?_, h2, fun w f ups m hi hf hroom r m' => ?_⟩
      · rw [h1, annotated, hty]; rfl
      · rw [runs_seq, ← h3 w f ups m hi hf (by simp only [List.length_cons] at hroom; omega)]
        constructor
        · rintro (⟨h, hr⟩ | ⟨m1, h, h'⟩)
          · exact absurd (runs_nop.1 h).1 hr
          · obtain ⟨-, rfl⟩ := runs_nop.1 h
            exact h'
        · exact fun h => then_right (runs_nop.2 ⟨rfl, rfl⟩) h
    | some hid =>
      rename_i t i
      refine ⟨⟨g.vars.length, t, i⟩ :: ps, ?_, ?_, fun w f ups m hi hf hroom r m' => ?_⟩
      · rw [List.map_cons, h1, annotated, hty]; rfl
      · intro p hp
        rcases List.mem_cons.1 hp with rfl | hp
        · exact ⟨_, _, hid⟩
        · exact h2 p hp
      · simp only [List.length_cons] at hroom
        exact runs_check hid hi (by omega) hf (by omega) (h3 w f ups (m.wipe 1) hi hf (by omega))

/-! ## The result -/

/-- The opcodes that end a function. -/
def Opcode.stops : Opcode → Bool
  | .return_ | .assertTypeAndReturn | .assertTypeOrNullAndReturn => true
  | _ => false

/-- A step that leads to another instruction, if it leads anywhere. -/
def Goes (y : V Next) : Prop := ∀ m nx m', y m = (.ok nx, m') → nx.sig = .normal

theorem Goes.bind {α : Type} {y : V α} {k : α → V Next} (h : ∀ a, Goes (k a)) : Goes (y >>= k) := by
  intro m nx m' he
  obtain ⟨a, m1, -, h2⟩ := Sim.bind_done he
  exact h a _ _ _ h2

theorem Goes.goto (p : Nat) : Goes (pure (.goto p)) := by
  intro m nx m' h
  cases h
  rfl

theorem Goes.err (e : RtErr) : Goes (V.err e) := by
  intro m nx m' h
  cases h

theorem Goes.panic (e : String) : Goes (V.panic e) := by
  intro m nx m' h
  cases h

/-- Only the three return instructions end a function. -/
theorem step_goes (w : World) (k : Calls) (bc : Bytecode) (f : Frame) (ups : Option (List Nat)) (o : Opcode) (pos : Nat)
    (h : o.stops = false) : Goes (step w k bc f ups o pos) := by
  cases o <;> first | cases h | skip
  all_goals
    unfold step
    dsimp only
    repeat' first
      | exact Goes.goto _
      | exact Goes.err _
      | exact Goes.panic _
      | refine Goes.bind fun _ => ?_
      | split

/-- Code in which every instruction that ends the function is in a piece with the property `R`. -/
inductive Guarded (R : Code → Prop) : Code → Prop where
  | result {c : Code} (h : R c) : Guarded R c
  | nop : Guarded R .nop
  | instr {i : Instr} (h : i.opcode.stops = false) : Guarded R (.instr i)
  | seq {a b : Code} (ha : Guarded R a) (hb : Guarded R b) : Guarded R (.seq a b)
  | skipIf {b : Bool} {c : Code} (h : Guarded R c) : Guarded R (.skipIf b c)
  | branch {a b : Code} (ha : Guarded R a) (hb : Guarded R b) : Guarded R (.branch a b)
  | loop {c : Code} (h : Guarded R c) : Guarded R (.loop c)
  | breakIf {b : Bool} : Guarded R (.breakIf b)
  | brk : Guarded R .brk
  | cont : Guarded R .cont
  | chain {c : Code} (h : Guarded R c) : Guarded R (.chain c)
  | exitIf {b : Bool} : Guarded R (.exitIf b)

namespace Guarded
variable {R : Code → Prop}

theorem op {o : Opcode} (h : o.stops = false) : Guarded R (.op o) := .instr h
theorem num {o : Opcode} {k : Nat} (h : o.stops = false) : Guarded R (.num o k) := .instr h
theorem sym {o : Opcode} {x : String} (h : o.stops = false) : Guarded R (.sym o x) := .instr h

theorem ident {g g' : Env} {x : String} {i : Instr} (h : IdentGen g x i g') : Guarded R (.instr i) := by
  cases h <;> exact .instr rfl

theorem closeCode (vs : List ScopeVar) : Guarded R (Dice.closeCode vs) := by
  induction vs with
  | nil => exact .nop
  | cons v vs ih =>
    refine .seq ih ?_
    split
    · exact .num rfl
    · exact .nop

theorem dropCode (n : Nat) : Guarded R (Dice.dropCode n) := by
  induction n with
  | zero => exact .nop
  | succ n ih => exact .seq (.op rfl) (.seq (.op rfl) ih)

theorem fieldLocals (ls : List (String × Nat)) : Guarded R (fieldLocalsCode ls) := by
  induction ls with
  | nil => exact .nop
  | cons l ls ih => exact .seq (.num rfl) (.seq (.sym rfl) (.seq (.num rfl) (.seq (.op rfl) (.seq ih .nop))))

theorem fnInstr (bc : Bytecode) (name : String) (id : Nat) (us : List UpvalueDescriptor) :
    Guarded R (.instr (Dice.fnInstr bc name id us)) := by
  refine .instr ?_
  unfold Dice.fnInstr
  split <;> rfl

theorem type_ {g g' : Env} {slot : Nat} {ty : Option TypeAnn} {c : Code} (h : TypeGen g slot ty c g') : Guarded R c := by
  cases h with
  | none => exact .nop
  | some h =>
    refine .seq (.ident h) (.num ?_)
    unfold localCheck
    split <;> rfl

theorem params {g g' : Env} {args : List FnArg} {c : Code} (h : ParamsGen g args c g') : Guarded R c := by
  induction h with
  | nil => exact .nop
  | cons _ ht _ ih => exact .seq (type_ ht) ih

theorem args {g g' : Env} {k : FnKind} {args : List FnArg} {c : Code} (h : ArgsGen g k args c g') : Guarded R c := by
  cases h with
  | noReceiver _ _ hp => exact params hp
  | receiver _ hp => exact params hp

theorem intCode (i : Int) : Guarded R (Dice.intCode i) := by
  unfold Dice.intCode
  split
  · exact .op rfl
  · split
    · exact .op rfl
    · exact .instr rfl

theorem floatCode {f : Float} {c : Code} (h : FloatCode f c) : Guarded R c := by
  cases h
  · exact .op rfl
  · exact .op rfl
  · exact .instr rfl

theorem storeMember (k : FnKind) (slot : Nat) (name : String) : Guarded R (Dice.storeMember k slot name) := by
  unfold Dice.storeMember
  split
  · exact .seq (.sym rfl) (.num rfl)
  · exact .seq (.sym rfl) (.num rfl)
  · exact .seq (.sym rfl) (.seq (.op rfl) (.seq (.num rfl) .nop))

end Guarded

/-- The code that compares the result with the type `t` and ends the function. -/
def ChecksResult (t : TypeAnn) (c : Code) : Prop :=
  ∃ g g' i, IdentGen g t.name i g' ∧ c = .seq (.instr i) (.op (returnCheck t.isNullable))

theorem ReturnGen.checks {g g' : Env} {c : Code} (h : ReturnGen g c g') {k : CompilerKind} {t : TypeAnn} (hk : g.kind = some k)
    (ht : k.returnType = some t) : ChecksResult t c := by
  cases h with
  | plain hk' h =>
    rw [hk] at hk'
    cases hk'
    rw [ht] at h
    cases h
  | typed hk' ht' h =>
    rw [hk] at hk'
    cases hk'
    rw [ht] at ht'
    cases ht'
    exact ⟨_, _, _, h, rfl⟩

/-- What can be compiled to a return. -/
def CompilerKind.returns : CompilerKind → Bool
  | .function _ | .method _ | .constructor => true
  | _ => false

/-- All returns in a code are those that the compiler makes for the enclosing function. -/
theorem Gen.guardedBy {g g' : Env} {nd : Node} {c : Code} (h : Gen g nd c g') {k : CompilerKind} {ks : List CompilerKind}
    {R : Code → Prop} (hR : k.returns = true → ∀ {g c g'}, ReturnGen g c g' → g.kind = some k → R c) (hk : g.kinds = k :: ks)
    (hn : ∀ j args es r, nd = .fnBody j args es r → (∀ i, j ≠ .constructor i) ∧ k.returns = true) : Guarded R c := by
  have kind : ∀ {g : Env}, g.kinds = k :: ks → g.kind = some k := fun h => by rw [kind_kinds, h]; rfl
  have K := @kindsRel
  have fn : ∀ {g : Env} {k' : CompilerKind}, g.kinds = k :: ks → g.kind = some k' → (∃ r, k' = .function r ∨ k' = .method r) →
      k.returns = true := by
    rintro g k' h1 h2 ⟨r, rfl | rfl⟩ <;> rw [kind h1] at h2 <;> cases h2 <;> rfl
  induction h with
  | unit | null | str | elsNone => exact .instr rfl
  | itemsNil | argsNil | fieldsNil | clsNil => exact .nop
  | ident h | baseNone h => exact .ident h
  | bool => exact .op (by split <;> rfl)
  | int => exact .intCode _
  | float h => exact .floatCode h
  | anonFn => exact .fnInstr ..
  | object _ ih => exact .seq (.op rfl) (ih hk (by simp))
  | list _ ih => exact .seq (ih hk (by simp)) (.num rfl)
  | assignLocal _ _ _ ih => exact .seq (ih hk (by simp)) (.num rfl)
  | updateLocal _ _ ho _ ih =>
    refine .seq (.num rfl) (.seq (ih hk (by simp)) (.seq (.op ?_) (.seq (.num rfl) .nop)))
    unfold AssignOp.opcode at ho
    split at ho <;> cases ho <;> rfl
  | assignCaptured _ hr _ _ _ ih => exact .seq (ih ((K.resolve hr).trans hk) (by simp)) (.num rfl)
  | updateCaptured _ hr _ _ ho _ ih =>
    refine .seq (.num rfl) (.seq (ih ((K.resolve hr).trans hk) (by simp)) (.seq (.op ?_) (.seq (.num rfl) .nop)))
    unfold AssignOp.opcode at ho
    split at ho <;> cases ho <;> rfl
  | assignField h1 _ ih1 ih2 =>
    exact .seq (ih1 hk (by simp)) (.seq (ih2 ((h1.rel K).trans hk) (by simp)) (.seq (.sym rfl) .nop))
  | updateField ho h1 _ ih1 ih2 =>
    refine .seq (ih1 hk (by simp)) (.seq (.num rfl) (.seq (.sym rfl) (.seq (ih2 ((h1.rel K).trans hk) (by simp))
      (.seq (.op ?_) (.seq (.sym rfl) .nop)))))
    unfold AssignOp.opcode at ho
    split at ho <;> cases ho <;> rfl
  | assignIndex h1 h2 _ ih1 ih2 ih3 =>
    exact .seq (ih1 hk (by simp)) (.seq (ih2 ((h1.rel K).trans hk) (by simp))
      (.seq (ih3 ((h2.rel K).trans ((h1.rel K).trans hk)) (by simp)) (.seq (.op rfl) .nop)))
  | updateIndex ho h1 h2 _ ih1 ih2 ih3 =>
    refine .seq (ih1 hk (by simp)) (.seq (ih2 ((h1.rel K).trans hk) (by simp)) (.seq (.num rfl) (.seq (.num rfl)
      (.seq (.op rfl) (.seq (ih3 ((h2.rel K).trans ((h1.rel K).trans hk)) (by simp)) (.seq (.op ?_) (.seq (.op rfl) .nop)))))))
    unfold AssignOp.opcode at ho
    split at ho <;> cases ho <;> rfl
  | unary _ ih => exact .seq (ih hk (by simp)) (.op (by split <;> rfl))
  | and h1 _ ih1 ih2 | or h1 _ ih1 ih2 =>
    exact .seq (ih1 hk (by simp)) (.seq (.num rfl) (.seq (.op rfl) (.seq (.skipIf (.seq (.op rfl)
      (.seq (ih2 ((h1.rel K).trans hk) (by simp)) (.seq (.op rfl) .nop)))) .nop)))
  | pipeline h1 _ ih1 ih2 =>
    exact .seq (ih1 hk (by simp)) (.seq (ih2 ((h1.rel K).trans hk) (by simp)) (.seq (.num rfl) .nop))
  | coalesce h1 _ ih1 ih2 =>
    exact .seq (ih1 hk (by simp)) (.seq (.num rfl) (.seq (.op rfl) (.seq (.op rfl) (.seq (.skipIf (.seq (.op rfl)
      (.seq (ih2 ((h1.rel K).trans hk) (by simp)) .nop))) .nop))))
  | binary ho h1 _ ih1 ih2 =>
    refine .seq (ih1 hk (by simp)) (.seq (ih2 ((h1.rel K).trans hk) (by simp)) (.seq (.op ?_) .nop))
    unfold BinaryOp.opcode at ho
    split at ho <;> cases ho <;> rfl
  | «is» _ h ht ih => exact .seq (ih hk (by simp)) (.seq (.ident ht) (.seq (.op rfl) .nop))
  | isNullable _ h1 h2 ht ih1 ih2 =>
    exact .seq (ih1 hk (by simp)) (.seq (.op rfl) (.seq (.op rfl) (.seq (.num rfl) (.seq (.skipIf (.seq (.op rfl)
      (.seq (ih2 ((h1.rel K).trans hk) (by simp)) (.seq (.ident ht) (.seq (.op rfl) .nop))))) .nop))))
  | varDecl _ _ ht ih => exact .seq (ih hk (by simp)) (.seq (.num rfl) (.seq (.type_ ht) .nop))
  | varDecls _ _ ih => exact .seq (ih hk (by simp)) (.fieldLocals _)
  | fnDecl => exact .seq (.fnInstr ..) (.num rfl)
  | opDecl => exact .seq (.fnInstr ..) (.seq (.sym rfl) (.seq (.op rfl) .nop))
  | @classDecl g g1 g2 g3 g4 g5 g' name base items cb superSlot v ci vars h0 hb hsup _ _ hg _ _ ihb ihi =>
    have hk1 := (K.pushScope h0).trans hk
    have hk3 := (K.addLocal hsup).trans ((hb.rel K).trans hk1)
    have hk4 : g4.kinds = k :: ks := by
      rw [hg]
      split
      · exact (K.setState _ _ _).trans hk3
      · exact hk3
    exact .seq (ihb hk1 (by simp)) (.seq (.num rfl) (.seq (.sym rfl) (.seq (.num rfl) (.seq (ihi hk4 (by simp))
      (.seq (.closeCode _) .nop)))))
  | importItems => exact .seq (.sym rfl) (.fieldLocals _)
  | importModule => exact .seq (.sym rfl) (.seq (.fieldLocals _) (.seq (.num rfl) .nop))
  | exportDecl _ _ _ _ _ _ ih => exact .seq (.num rfl) (.seq (ih hk (by simp)) (.seq (.sym rfl) .nop))
  | ifExpr h1 h2 _ ih1 ih2 ih3 =>
    exact .seq (ih1 hk (by simp)) (.branch (ih2 ((h1.rel K).trans hk) (by simp))
      (ih3 ((h2.rel K).trans ((h1.rel K).trans hk)) (by simp)))
  | loop h0 _ _ ih => exact .seq (.loop (ih ((K.pushScope h0).trans hk) (by simp))) (.op rfl)
  | whileLoop h0 h1 _ _ ih1 ih2 =>
    have hk1 := (K.pushScope h0).trans hk
    exact .seq (.loop (.seq (ih1 hk1 (by simp)) (.seq .breakIf (.seq (ih2 ((h1.rel K).trans hk1) (by simp)) .nop)))) (.op rfl)
  | rangeLoop _ h1 h2 h0 hv _ _ ih1 ih2 ih3 =>
    have hk1 := (h1.rel K).trans hk
    have hk2 := (h2.rel K).trans hk1
    have hk4 := (K.addLocal hv).trans ((K.pushScope h0).trans hk2)
    exact .seq (ih1 hk (by simp)) (.seq (ih2 hk1 (by simp)) (.seq (.loop (.seq (.num rfl) (.seq (.num rfl)
      (.seq (.op (by split <;> rfl)) (.seq .breakIf (.seq (ih3 hk4 (by simp)) (.seq (.op rfl) (.seq (.num rfl) (.seq (.op rfl)
        (.seq (.op rfl) (.seq (.closeCode _) .nop))))))))))) (.seq (.op rfl) (.seq (.op rfl) .nop))))
  | forLoop _ h1 h0 hv _ _ ih1 ih2 =>
    have hk1 := (h1.rel K).trans hk
    have hk3 := (K.addLocal hv).trans ((K.pushScope h0).trans hk1)
    exact .seq (ih1 hk (by simp)) (.seq (.sym rfl) (.seq (.num rfl) (.seq (.sym rfl) (.seq (.loop (.seq (.num rfl) (.seq (.num rfl)
      (.seq (.num rfl) (.seq (.sym rfl) (.seq .breakIf (.seq (.instr rfl) (.seq (.op rfl) (.seq (ih2 hk3 (by simp)) (.seq (.op rfl)
        (.seq (.closeCode _) .nop))))))))))) (.seq (.op rfl) (.seq (.op rfl) (.seq (.op rfl) .nop)))))))
  | break_ h => exact .brk
  | continue_ h => exact .cont
  | blockExpr _ ih => exact ih hk (by simp)
  | returnValue hk' hf h hr ih =>
    exact .seq (ih hk (by simp)) (.seq (.dropCode _) (.seq (.result (hR (fn hk hk' hf) hr (kind ((h.rel K).trans hk)))) .nop))
  | returnUnit hk' hf hr => exact .seq (.op rfl) (.seq (.dropCode _) (.seq (.result (hR (fn hk hk' hf) hr (kind hk))) .nop))
  | returnSelf hk' _ hr =>
    refine .seq (.num rfl) (.seq (.dropCode _) (.seq (.result (hR ?_ hr (kind hk))) .nop))
    rw [kind hk] at hk'
    cases hk'
    rfl
  | chain _ _ h0 _ _ _ ih =>
    have := ih ((K.setCallDepth h0).trans hk) (by simp)
    split
    · exact .chain this
    · exact this
  | nullProp _ ih => exact .seq (ih hk (by simp)) (.seq (.num rfl) (.seq (.op rfl) (.seq (.op rfl) (.seq .exitIf .nop))))
  | errProp hk' hf h hr ih =>
    exact .seq (ih hk (by simp)) (.seq (.num rfl) (.seq (.sym rfl) (.seq (.skipIf (.seq (.dropCode _)
      (.result (hR (fn hk hk' hf) hr (kind ((h.rel K).trans hk)))))) (.seq (.sym rfl) .nop))))
  | field _ ih => exact .seq (ih hk (by simp)) (.sym rfl)
  | superAccess _ _ h1 h2 => exact .seq (.ident h1) (.seq (.ident h2) (.seq (.sym rfl) .nop))
  | call h1 _ _ ih1 ih2 => exact .seq (ih1 hk (by simp)) (.seq (ih2 ((h1.rel K).trans hk) (by simp)) (.seq (.num rfl) .nop))
  | superCall _ _ hi ih => exact .seq (.num rfl) (.seq (ih hk (by simp)) (.seq (.ident hi) (.seq (.num rfl) .nop)))
  | index h1 hd h0 _ _ _ ih1 ih2 =>
    exact .seq (ih1 hk (by simp)) (.seq (ih2 ((K.setTemps _ _).trans ((K.setCallDepth h0).trans ((h1.rel K).trans hk))) (by simp))
      (.seq (.op rfl) .nop))
  | seqNil _ ih => exact ih hk (by simp)
  | seqCons h1 _ ih1 ih2 => exact .seq (ih1 hk (by simp)) (.seq (.op rfl) (.seq (ih2 ((h1.rel K).trans hk) (by simp)) .nop))
  | elsSome _ ih => exact ih hk (by simp)
  | itemsCons h1 _ ih1 ih2 => exact .seq (ih1 hk (by simp)) (ih2 ((h1.rel K).trans hk) (by simp))
  | @argsCons g g1 g2 g3 g' e es c1 c2 d hd h0 hh1 h2 _ ih1 ih2 =>
    have hk1 := (K.setTemps g1 (g1.temps + 1)).trans ((K.setCallDepth h0).trans hk)
    exact .seq (ih1 hk1 (by simp)) (ih2 ((K.setCallDepth h2).trans ((hh1.rel K).trans hk1)) (by simp))
  | fieldsCons h1 _ ih1 ih2 =>
    exact .seq (.num rfl) (.seq (ih1 hk (by simp)) (.seq (.sym rfl) (.seq (.op rfl) (.seq (ih2 ((h1.rel K).trans hk) (by simp)) .nop))))
  | baseSome _ ih => exact ih hk (by simp)
  | clsFn _ _ _ hb _ _ _ ih2 =>
    exact .seq (.fnInstr ..) (.seq (.storeMember ..) (.seq (ih2 ((K.fn (hb.rel K)).trans hk) (by simp)) .nop))
  | clsOp _ _ _ hb _ _ _ ih2 =>
    exact .seq (.fnInstr ..) (.seq (.sym rfl) (.seq (.num rfl) (.seq (ih2 ((K.fn (hb.rel K)).trans hk) (by simp)) .nop)))
  | block h0 hs _ _ ih =>
    refine .seq (ih ((K.scanDecls hs).trans ((K.pushScope h0).trans hk)) (by simp)) (.seq ?_ (.seq (.closeCode _) .nop))
    split
    · exact .op rfl
    · exact .nop
  | fnBody _ h0 ha hs h _ he _ ih =>
    have hk3 := (K.scanDecls hs).trans ((ha.rel K).trans ((K.pushScope h0).trans hk))
    refine .seq (.args ha) (.seq (ih hk3 (by simp)) (.seq (.closeCode _) (.seq ?_ .nop)))
    cases he with
    | constructor => exact absurd rfl ((hn _ _ _ _ rfl).1 _)
    | other _ hr => exact .result (hR (hn _ _ _ _ rfl).2 hr (kind ((h.rel K).trans hk3)))

/-- In the code of a function with declared result type `t`, every way out checks the result. -/
theorem Gen.guarded {g g' : Env} {nd : Node} {c : Code} (h : Gen g nd c g') {k : CompilerKind} {ks : List CompilerKind}
    {t : TypeAnn} (ht : k.returnType = some t) (hk : g.kinds = k :: ks)
    (hn : ∀ j args es r, nd ≠ .fnBody (.constructor j) args es r) : Guarded (ChecksResult t) c := by
  refine h.guardedBy (fun _ _ _ _ hr hg => hr.checks hg ht) hk fun j args es r hj => ⟨fun i hi => ?_, ?_⟩
  · exact hn i args es r (hi ▸ hj)
  · cases k <;> first | rfl | cases ht

/-- The value on top has just been compared with the class that the name of the type `t` denoted, and conforms. -/
inductive Vetted (w : World) (f : Frame) (ups : Option (List Nat)) (t : TypeAnn) (m : VM) : Prop where
  | mk {g g' : Env} {i : Instr} {m1 : VM} {c : Nat} {v : Value} (load : IdentGen g t.name i g')
      (reads : Runs w f ups (.instr i) m1 (.done .normal) (m1.pushed (.cls c))) (state : m = m1.wipe 1) (top : m.Top v)
      (checked : assertTypeOf w t.isNullable c v m = (.ok (), m))

section
variable {w : World} {f : Frame} {ups : Option (List Nat)} {t : TypeAnn}

theorem runs_of {c : Code} {n k : Nat} {s : Sig} {m m' : VM} (h : exec w f ups c n m = (.ok (s, k), m')) :
    Runs w f ups c m (.done s) m' := ⟨n, by rw [h]; rfl, by rw [h]⟩

theorem returnCheck_ok {nullable : Bool} {n : Nat} {s : Sig} {u : Value} {m m' : VM} (hm : m.ptr < maxStack)
    (h : istep w n f ups (.op (returnCheck nullable)) (m.pushed u) = (.ok s, m')) :
    s = .stop ∧ m' = m.wipe 1 ∧ ∃ c v, u = .cls c ∧ m'.Top v ∧ assertTypeOf w nullable c v m' = (.ok (), m') := by
  have key : istep w n f ups (.op (returnCheck nullable)) (m.pushed u) =
      (pop >>= fun u => asClass u >>= fun c => peek 0 >>= fun v => assertTypeOf w nullable c v >>= fun _ => pure Sig.stop) (m.pushed u) := by
    unfold istep
    cases nullable
    all_goals
      show ((pop >>= fun u => asClass u >>= fun c => peek 0 >>= fun v => assertTypeOf w _ c v >>= fun _ =>
        pure Next.stop) >>= fun nx => pure nx.sig) (m.pushed u) = _
      simp only [bind_assocV]
      rfl
  rw [key, bind_ok (pop_top (VM.top_pushed u hm)), VM.drop_pushed] at h
  obtain ⟨c, m1, h1, h⟩ := Sim.bind_done h
  cases Sim.reads_asClass u _ _ _ h1
  obtain ⟨v, m2, h2, h⟩ := Sim.bind_done h
  obtain ⟨_, m3, h3, h⟩ := Sim.bind_done h
  cases h
  have hu : u = .cls c := by
    unfold asClass at h1
    split at h1
    · cases h1; rfl
    · cases h1
  have h2' := h2
  unfold peek at h2'
  split at h2'
  · rename_i hp
    cases h2'
    cases Sim.reads_assertTypeOf w nullable c _ _ _ _ h3
    exact ⟨rfl, rfl, c, _, hu, ⟨hp.1, by have := hm; show m.ptr ≤ maxStack; omega, rfl⟩, h3⟩
  · cases h2'

theorem Guarded.stop_in {R : Code → Prop} {c : Code} (h : Guarded R c) {n k : Nat} {m m' : VM}
    (he : exec w f ups c n m = (.ok (.stop, k), m')) : ∃ c0 n0 m0, R c0 ∧ exec w f ups c0 n0 m0 = (.ok (.stop, k), m') := by
  have tk : ∀ {x : Nat → V (Sig × Nat)} {n : Nat} {m m' : VM} {s : Sig} {k : Nat}, tick x n m = (.ok (s, k), m') →
      ∃ n', x n' m = (.ok (s, k), m') := by
    intro x n m m' s k h
    cases n with
    | zero => cases h
    | succ n => exact ⟨n, h⟩
  induction h generalizing n k m m' with
  | result hi => exact ⟨_, _, _, hi, he⟩
  | nop => cases he
  | instr hs =>
    obtain ⟨j, hj⟩ := Sim.exec_instr_ok he
    obtain ⟨nx, m1, h1, h2⟩ := Sim.bind_done hj
    have := step_goes _ _ _ _ _ _ _ hs _ _ _ h1
    rw [this] at h2
    cases h2
  | seq _ _ iha ihb =>
    obtain ⟨⟨s1, k1⟩, m1, h1, h2⟩ := Sim.bind_done he
    unfold thenRun at h2
    cases s1 with
    | normal => exact ihb h2
    | stop => cases h2; exact iha h1
    | _ => cases h2
  | skipIf _ ih =>
    obtain ⟨n', h1⟩ := tk he
    obtain ⟨x, m1, h2, h3⟩ := Sim.bind_done h1
    split at h3
    · cases h3
    · exact ih h3
  | branch _ _ iht ihe =>
    obtain ⟨n', h1⟩ := tk he
    obtain ⟨x, m1, h2, h3⟩ := Sim.bind_done h1
    split at h3
    · obtain ⟨⟨s1, k1⟩, m2, h4, h5⟩ := Sim.bind_done h3
      unfold thenRun at h5
      cases s1 with
      | normal =>
        obtain ⟨n2, h6⟩ := tk h5
        cases h6
      | stop => cases h5; exact iht h4
      | _ => cases h5
    · exact ihe h3
  | @loop c _ ih =>
    have key : ∀ g n m, iterate (exec w f ups c) g n m = (.ok (.stop, k), m') →
        ∃ c0 n0 m0, R c0 ∧ exec w f ups c0 n0 m0 = (.ok (.stop, k), m') := by
      intro g
      induction g with
      | zero => intro n m h; cases h
      | succ g ihg =>
        intro n m hi
        obtain ⟨⟨s1, k1⟩, m1, h1, h2⟩ := Sim.bind_done hi
        cases s1 with
        | normal =>
          simp only at h2
          obtain ⟨n2, h6⟩ := tk h2
          exact ihg _ _ h6
        | cont => exact ihg _ _ h2
        | stop => cases h2; exact ih h1
        | _ => cases h2
    exact key _ _ _ he
  | breakIf | exitIf =>
    obtain ⟨n', h1⟩ := tk he
    obtain ⟨x, m1, h2, h3⟩ := Sim.bind_done h1
    split at h3 <;> cases h3
  | brk | cont =>
    obtain ⟨n', h1⟩ := tk he
    cases h1
  | chain _ ih =>
    obtain ⟨⟨s1, k1⟩, m1, h1, h2⟩ := Sim.bind_done he
    unfold endChain at h2
    cases s1 with
    | stop => cases h2; exact ih h1
    | _ => cases h2

theorem Guarded.stop {c : Code} (h : Guarded (ChecksResult t) c) {n k : Nat} {m m' : VM}
    (he : exec w f ups c n m = (.ok (.stop, k), m')) : Vetted w f ups t m' := by
  obtain ⟨_, _, _, ⟨_, _, _, hi, rfl⟩, he⟩ := h.stop_in he
  obtain ⟨⟨s1, k1⟩, m1, h1, h2⟩ := Sim.bind_done he
  obtain ⟨rfl, hm, u, rfl⟩ := load_runs hi (runs_of h1)
  obtain ⟨j, hj⟩ := Sim.exec_instr_ok h2
  obtain ⟨-, hs, c, v, rfl, hv, hc⟩ := returnCheck_ok hm hj
  exact .mk hi (runs_of h1) hs hv hc

end

/-! ## Calls -/

open Sim (callX frameOf entered)

/-- The slot of the first parameter. -/
def firstSlot (k : FnKind) : Nat := if k = .function ∨ k = .staticMethod then 1 else 0

theorem annotated_slot {k : Nat} {args : List FnArg} {p : Nat × TypeAnn} (h : p ∈ annotated k args) : k ≤ p.1 ∧ p.1 < k + args.length := by
  induction args generalizing k with
  | nil => cases h
  | cons a rest ih =>
    rw [annotated, List.mem_append] at h
    rcases h with h | h
    · split at h
      · rw [List.mem_singleton] at h
        subst h
        simp only [List.length_cons]
        omega
      · cases h
    · have := ih h
      simp only [List.length_cons]
      omega

section
variable {w : World} {f : Frame} {ups : Option (List Nat)} {m m' : VM}

/-- Where checks are passed, they have no effect but that the free slot above the stack is cleared. -/
theorem Checked.done {ps : List Check} {s : Sig} (hl : ∀ p ∈ ps, ∃ g1 g2, IdentGen g1 p.type_.name p.load g2)
    (hs : ∀ p ∈ ps, f.start + p.slot < m.ptr) (h : Checked w f ups ps m (.done s) m') :
    s = .normal ∧ (m' = m ∨ m' = m.wipe 1) ∧ ∀ p ∈ ps, ∃ c mi, (mi = m ∨ mi = m.wipe 1) ∧
      Runs w f ups (.instr p.load) mi (.done .normal) (mi.pushed (.cls c)) ∧
      Conforms w m.heap p.type_.isNullable c (m.mem (f.start + p.slot)) := by
  have wipe2 : ∀ m : VM, (m.wipe 1).wipe 1 = m.wipe 1 := by
    intro m
    unfold VM.wipe memClear
    simp only [VM.mk.injEq, and_self, and_true]
    funext j
    split <;> simp_all
  generalize hr : Res.done s = r at h
  induction h with
  | nil => cases hr; exact ⟨rfl, .inl rfl, by simp⟩
  | unread h1 hn =>
    subst hr
    obtain ⟨g1, g2, hi⟩ := hl _ (List.mem_cons_self ..)
    obtain ⟨rfl, -⟩ := load_runs hi h1
    exact absurd rfl hn
  | noClass => cases hr
  | violated => cases hr
  | @conforms p ps m m1 m' r c h1 hv hc hrest ih =>
    subst hr
    obtain ⟨g1, g2, hi⟩ := hl _ (List.mem_cons_self ..)
    obtain ⟨-, hm, v, rfl⟩ := load_runs hi h1
    cases hv.unique (VM.top_pushed v hm)
    rw [VM.drop_load] at ih
    obtain ⟨rfl, e1, e2⟩ := ih (fun q hq => hl q (List.mem_cons_of_mem _ hq))
      (fun q hq => hs q (List.mem_cons_of_mem _ hq)) rfl
    refine ⟨rfl, .inr ?_, fun q hq => ?_⟩
    · rcases e1 with rfl | rfl
      · rfl
      · exact wipe2 m
    · rcases List.mem_cons.1 hq with rfl | hq'
      · exact ⟨c, m, .inl rfl, h1, hc⟩
      · obtain ⟨c', mi, h2, h3, h4⟩ := e2 q hq'
        refine ⟨c', mi, .inr ?_, h3, ?_⟩
        · rcases h2 with rfl | rfl
          · rfl
          · exact wipe2 m
        · have hq2 := hs q hq
          have : (m.wipe 1).mem (f.start + q.slot) = m.mem (f.start + q.slot) := by
            show memClear _ _ _ _ = _
            unfold memClear
            rw [if_neg (by omega)]
          rwa [this] at h4

end

/-- **C48.**  The code of a function checks the annotated parameters one after the other, each against the class that
the name of its type denotes there, and runs the rest, which does not depend on the annotations of the parameters,
only if all of them conform. -/
theorem parameters_checked {g g' : Env} {k : CompilerKind} {fk : FnKind} {params : List FnArg} {es : List Expr} {t : Option Expr}
    {c : Code} {fn : Ctx} {bc : Bytecode} (inv : StackInv g)
    (hgen : Gen (g.pushFn k) (.fnBody fk params es t) c (fn :: g')) (hcode : FnCode fn c bc) (hfit : Fits bc) :
    ∃ (ps : List Check) (rest : Code), ps.map (fun p => (p.slot, p.type_)) = annotated (firstSlot fk) params ∧
      (∀ p ∈ ps, ∃ g1 g2, IdentGen g1 p.type_.name p.load g2) ∧ firstSlot fk + params.length ≤ bc.slotCount ∧
      ∀ (w : World) (f : Frame) (ups : Option (List Nat)) (m : VM), HeapInv m.heap → f.stop ≤ m.ptr →
        f.start + bc.slotCount ≤ f.stop → ∀ r m', Runs w f ups c m r m' ↔
          Then (Checked w f ups ps) (Runs w f ups rest) m r m' := by
  have inv0 : StackInv (g.pushFn k) := ⟨List.Pairwise.nil, scopeInv_new _, by simp, inv⟩
  cases hgen with
  | @fnBody _ g1 g2 g3 g4 g5 _ _ _ _ _ c1 c2 c3 vars hsup h0 ha hs hseq hv he hp =>
  simp only [Option.map_eq_some_iff] at hp
  obtain ⟨⟨vars', gf⟩, hp, hgf⟩ := hp
  simp only at hgf
  subst hgf
  have hv1 : g1.vars = [] := by cases h0; rfl
  have inv1 := (slotRel.pushScope h0 inv0).1
  have inv2 := (ha.rel slotRel inv1).1
  have hslots : firstSlot fk + params.length ≤ bc.slotCount := by
    have h1 : SlotsLe g2 (fn :: g') :=
      ((slotRel.trans (slotRel.scanDecls hs) (slotRel.trans (hseq.rel slotRel) (slotRel.trans (he.rel slotRel) (slotRel.popScope hp)))) inv2).2
    have h2 := Sim.Env.vars_le inv2
    have h3 : g2.slotCount ≤ fn.scopes.slotCount := by
      cases g2 with
      | nil => exact Nat.zero_le _
      | cons c r => exact h1.1
    have h4 : g2.vars.length = firstSlot fk + params.length := by
      unfold firstSlot
      cases ha with
      | noReceiver hk hl hp =>
        rw [if_pos hk, hp.vars (slotRel.addLocal hl inv1).1, (addLocal_vars inv1 hl).2, hv1]
        simp only [List.length_append, List.length_reverse, List.length_zipIdx, List.length_map, List.length_cons, List.length_nil]
        omega
      | receiver hk hp =>
        rw [if_neg hk, hp.vars inv1, hv1]
        simp
    rw [hcode.slots]
    omega
  have hmax : bc.slotCount ≤ 256 := by cases hfit; assumption
  have key : ∃ ps : List Check, ps.map (fun p => (p.slot, p.type_)) = annotated (firstSlot fk) params ∧
      (∀ p ∈ ps, ∃ g1 g2, IdentGen g1 p.type_.name p.load g2) ∧
      ∀ (w : World) (f : Frame) (ups : Option (List Nat)) (m : VM), HeapInv m.heap → f.stop ≤ m.ptr →
        f.start + (firstSlot fk + params.length) ≤ f.stop → ∀ r m', Runs w f ups c1 m r m' ↔ Checked w f ups ps m r m' := by
    unfold firstSlot at hslots ⊢
    cases ha with
    | noReceiver hk hl hp =>
      rw [if_pos hk] at hslots ⊢
      have hv2 : Env.vars _ = _ := (addLocal_vars inv1 hl).2
      rw [hv1] at hv2
      have := params_checked hp (slotRel.addLocal hl inv1).1 (by rw [hv2]; simp only [List.length_cons, List.length_nil]; omega)
      rw [hv2] at this
      exact this
    | receiver hk hp =>
      rw [if_neg hk] at hslots ⊢
      have := params_checked hp inv1 (by rw [hv1]; simp only [List.length_nil]; omega)
      rw [hv1] at this
      exact this
  obtain ⟨ps, e1, e2, e3⟩ := key
  refine ⟨ps, .block [c2, closeCode vars, c3], e1, e2, hslots, fun w f ups m hi hf hr r m' => ?_⟩
  show Runs w f ups (.seq c1 _) m r m' ↔ _
  rw [runs_seq]
  unfold Then
  simp only [e3 w f ups m hi hf (by omega)]

section
variable {g g' : Env} {k : CompilerKind} {fk : FnKind} {params : List FnArg} {es : List Expr} {body : Option Expr} {c : Code}
  {fn : Ctx} {bc : Bytecode} {w : World} {m m' : VM} {argc n : Nat} {u : Value} {receiver : Option Value} {ups : Option (List Nat)}

/-- The called value is a function with code `bc`. -/
def Calls.target (u : Value) (bc : Bytecode) (receiver : Option Value) (ups : Option (List Nat)) : Prop :=
  (∃ name id us, callTarget u = (.fnClosure bc name id us, receiver) ∧ ups = some us) ∨
    ∃ name id, callTarget u = (.fnScript bc name id, receiver) ∧ ups = none

theorem peek_pos (h : peek argc m = (.ok u, m)) : argc + 1 ≤ m.ptr := by
  unfold peek at h
  split at h
  · omega
  · cases h

theorem callX_later (w : World) (argc : Nat) : Later (callX w argc) :=
  Later.bindV (fun n d => (calls_le w (Nat.le_add_right n d)).callFn argc) fun _ => Later.pure .normal

/-- A call that succeeds has run the code of the function to its end. -/
theorem call_ran (hgen : Gen (g.pushFn k) (.fnBody fk params es body) c (fn :: g')) (hcode : FnCode fn c bc) (hfit : Fits bc)
    (hpk : peek argc m = (.ok u, m)) (hu : Calls.target u bc receiver ups) (h : callFn w n argc m = (.ok (), m')) :
    ∃ j s l m1, exec w (frameOf argc bc m) ups c j (entered argc bc receiver m) = (.ok (s, l), m1) ∧
      Sim.finishCall w (frameOf argc bc m) (m.ptr + Sim.reservedFor argc bc) (s, l) m1 = (.ok (), m') := by
  have hx : callX w argc n m = (.ok (.normal, n), m') := by
    unfold callX
    exact bind_ok h
  rcases Sim.call_cases (w := w) (peek_pos hpk) hpk hu (fun n m1 => congrFun (fn_run hgen hcode hfit w (frameOf argc bc m) ups n) m1)
    with ⟨s, m1, h1, -⟩ | ⟨h1, h2⟩
  · have := (Ends.det (callX_later w argc) h1 ⟨n, by rw [hx]; rfl, by rw [hx]⟩).1
    cases this
  · by_cases hn : n < 3
    · have := h1 n hn
      rw [hx] at this
      cases this
    · obtain ⟨j, rfl⟩ : ∃ j, n = j + 3 := ⟨n - 3, by omega⟩
      rw [h2 j] at hx
      obtain ⟨⟨s, l⟩, m1, e1, e2⟩ := Sim.bind_done hx
      obtain ⟨_, m2, e3, e4⟩ := Sim.bind_done e2
      cases e4
      exact ⟨j, s, l, m1, e1, e3⟩

theorem entered_frame (hp : argc + 1 ≤ m.ptr) :
    (frameOf argc bc m).stop ≤ (entered argc bc receiver m).ptr ∧
      (frameOf argc bc m).start + bc.slotCount ≤ (frameOf argc bc m).stop := by
  refine ⟨Nat.le_refl _, ?_⟩
  show m.ptr - (argc + 1) + bc.slotCount ≤ m.ptr + Sim.reservedFor argc bc
  unfold Sim.reservedFor
  split <;> omega

/-- The value of a parameter at the start of a call. -/
theorem entered_arg (hp : argc + 1 ≤ m.ptr) {i : Nat} :
    (entered argc bc receiver m).mem ((frameOf argc bc m).start + (i + 1)) = m.mem (m.ptr - argc + i) := by
  show (match receiver with | some r => upd m.mem (m.ptr - (argc + 1)) r | none => m.mem) (m.ptr - (argc + 1) + (i + 1)) = _
  have e : m.ptr - (argc + 1) + (i + 1) = m.ptr - argc + i := by omega
  rw [e]
  cases receiver with
  | none => rfl
  | some r => exact upd_other (by omega)

/-- **C48.**  A call of a compiled function succeeds only if every parameter with a declared type conforms to the class
that the name of the type denotes when the function starts.  The parameter in slot `i + 1` is the argument `i`
(`entered_arg`), the slots come from `firstSlot`. -/
theorem call_arguments_conform (inv : StackInv g) (hgen : Gen (g.pushFn k) (.fnBody fk params es body) c (fn :: g'))
    (hcode : FnCode fn c bc) (hfit : Fits bc) (hi : HeapInv m.heap) (hpk : peek argc m = (.ok u, m))
    (hu : Calls.target u bc receiver ups) (h : callFn w n argc m = (.ok (), m')) {slot : Nat} {t : TypeAnn}
    (ht : (slot, t) ∈ annotated (firstSlot fk) params) :
    ∃ g1 g2 i cls mi, IdentGen g1 t.name i g2 ∧
      (mi = entered argc bc receiver m ∨ mi = (entered argc bc receiver m).wipe 1) ∧
      Runs w (frameOf argc bc m) ups (.instr i) mi (.done .normal) (mi.pushed (.cls cls)) ∧
      Conforms w m.heap t.isNullable cls ((entered argc bc receiver m).mem ((frameOf argc bc m).start + slot)) := by
  obtain ⟨j, s, l, m1, h1, h2⟩ := call_ran hgen hcode hfit hpk hu h
  obtain ⟨ps, rest, e1, e2, e3, e4⟩ := parameters_checked inv hgen hcode hfit
  have hp := peek_pos hpk
  obtain ⟨f1, f2⟩ := entered_frame (bc := bc) (receiver := receiver) hp
  have hslot : ∀ p ∈ ps, (frameOf argc bc m).start + p.slot < (entered argc bc receiver m).ptr := by
    intro p hp'
    have h5 : (p.slot, p.type_) ∈ annotated (firstSlot fk) params := by rw [← e1]; exact List.mem_map_of_mem hp'
    have h6 := annotated_slot h5
    simp only at h6
    omega
  have h3 := (e4 w (frameOf argc bc m) ups (entered argc bc receiver m) hi f1 f2 _ _).1 (runs_of h1)
  have h4 : ∃ s' m2, Checked w (frameOf argc bc m) ups ps (entered argc bc receiver m) (.done s') m2 := by
    rcases h3 with ⟨h3, -⟩ | ⟨m2, h3, -⟩
    · exact ⟨_, _, h3⟩
    · exact ⟨_, _, h3⟩
  obtain ⟨s', m2, h4⟩ := h4
  obtain ⟨-, -, h5⟩ := h4.done e2 hslot
  rw [← e1] at ht
  obtain ⟨p, hp', he⟩ := List.mem_map.1 ht
  cases he
  obtain ⟨cls, mi, h6, h7, h8⟩ := h5 p hp'
  obtain ⟨g1, g2, hid⟩ := e2 p hp'
  exact ⟨g1, g2, p.load, cls, mi, hid, h6, h7, h8⟩

/-- **C48.**  If a check of a parameter fails, the call fails with the error of that check, or because of the limits of
the stack. -/
theorem violated_argument_fails (inv : StackInv g) (hgen : Gen (g.pushFn k) (.fnBody fk params es body) c (fn :: g'))
    (hcode : FnCode fn c bc) (hfit : Fits bc) (hi : HeapInv m.heap) (hpk : peek argc m = (.ok u, m))
    (hu : Calls.target u bc receiver ups) :
    ∃ ps : List Check, ps.map (fun p => (p.slot, p.type_)) = annotated (firstSlot fk) params ∧
      (∀ p ∈ ps, ∃ g1 g2, IdentGen g1 p.type_.name p.load g2) ∧
      ∀ e m', Checked w (frameOf argc bc m) ups ps (entered argc bc receiver m) (.err e) m' →
        (∃ n, callFn w n argc m = (.err e, m')) ∨ ∃ n s m2, callFn w n argc m = (.panic s, m2) ∧ maxStack ≤ m2.ptr := by
  obtain ⟨ps, rest, e1, e2, e3, e4⟩ := parameters_checked inv hgen hcode hfit
  refine ⟨ps, e1, e2, fun e m' hc => ?_⟩
  have hp := peek_pos hpk
  obtain ⟨f1, f2⟩ := entered_frame (bc := bc) (receiver := receiver) hp
  obtain ⟨j, r1, r2⟩ := (e4 w (frameOf argc bc m) ups (entered argc bc receiver m) hi f1 f2 (.err e) m').2 (.inl ⟨hc, by simp⟩)
  have back : ∀ {n : Nat} {r : Res} {m2 : VM}, (callX w argc n m).1.res = some r → (callX w argc n m).2 = m2 → (∀ s, r ≠ .done s) →
      ∃ o, callFn w n argc m = (o, m2) ∧ (∀ e, r = .err e → o = .err e) ∧ ∀ s, r = .panic s → o = .panic s := by
    intro n r m2 h1 h2 h3
    unfold callX at h1 h2
    cases hx : callFn w n argc m with
    | mk o m3 =>
      cases o with
      | ok a =>
        rw [bind_ok hx] at h1
        cases h1
        exact absurd rfl (h3 _)
      | err e =>
        rw [bind_err hx] at h1 h2
        cases h1
        cases h2
        exact ⟨_, rfl, (fun _ h => by cases h; rfl), fun _ h => by cases h⟩
      | panic s =>
        rw [bind_panic hx] at h1 h2
        cases h1
        cases h2
        exact ⟨_, rfl, (fun _ h => by cases h), fun _ h => by cases h; rfl⟩
      | timeout =>
        rw [bind_timeout hx] at h1
        cases h1
  rcases Sim.call_cases (w := w) hp hpk hu (fun n m1 => congrFun (fn_run hgen hcode hfit w (frameOf argc bc m) ups n) m1)
    with ⟨s, m1, ⟨n, h1, h2⟩, h3⟩ | ⟨-, h2⟩
  · obtain ⟨o, h4, -, h5⟩ := back h1 h2 (by simp)
    rw [h5 s rfl] at h4
    exact .inr ⟨n, s, m1, h4, h3⟩
  · refine .inl ⟨j + 3, ?_⟩
    have h3 := h2 j
    cases hx : exec w (frameOf argc bc m) ups c j (entered argc bc receiver m) with
    | mk o m3 =>
      rw [hx] at r1 r2
      cases o with
      | err e' =>
        cases r1
        cases r2
        rw [bind_err hx] at h3
        obtain ⟨o, h4, h5, -⟩ := back (r := .err e) (m2 := m3) (n := j + 3) (by rw [h3]; rfl) (by rw [h3]) (by simp)
        rw [h4, h5 e rfl]
      | _ => cases r1

theorem exec_seq_normal {a b : Code} {f : Frame} {n l : Nat} (h : exec w f ups (.seq a b) n m = (.ok (.normal, l), m')) :
    ∃ j m1, exec w f ups b j m1 = (.ok (.normal, l), m') := by
  obtain ⟨⟨s1, j⟩, m1, -, h2⟩ := Sim.bind_done (y := exec w f ups a n) h
  unfold thenRun at h2
  cases s1 with
  | normal => exact ⟨j, m1, h2⟩
  | _ => cases h2

/-- A function with declared result type does not fall off its end. -/
theorem fnBody_stops {f : Frame} {l : Nat} (hgen : Gen (g.pushFn k) (.fnBody fk params es body) c (fn :: g'))
    (hk : ∀ j, fk ≠ .constructor j) {t : TypeAnn} (ht : k.returnType = some t)
    (h : exec w f ups c n m = (.ok (.normal, l), m')) : False := by
  cases hgen with
  | @fnBody _ g1 g2 g3 g4 g5 _ _ _ _ _ c1 c2 c3 vars hsup h0 ha hs hseq hv he hp =>
  obtain ⟨j1, m1, h1⟩ := exec_seq_normal h
  obtain ⟨j2, m2, h2⟩ := exec_seq_normal h1
  obtain ⟨j3, m3, h3⟩ := exec_seq_normal h2
  obtain ⟨⟨s4, j4⟩, m4, h4, h5⟩ := Sim.bind_done (y := exec w f ups c3 j3) h3
  unfold thenRun at h5
  have hs4 : s4 = .normal := by
    cases s4 with
    | normal => rfl
    | _ => cases h5
  subst hs4
  cases he with
  | constructor => exact hk _ rfl
  | other _ hr =>
    have hkind : g4.kind = some k := by
      rw [kind_kinds, hseq.rel kindsRel, kindsRel.scanDecls hs, ha.rel kindsRel, kindsRel.pushScope h0]
      rfl
    cases hr with
    | plain hk' h =>
      rw [hkind] at hk'
      cases hk'
      rw [ht] at h
      cases h
    | typed hk' ht' hid =>
      obtain ⟨⟨s6, j6⟩, m6, h6, h7⟩ := Sim.bind_done h4
      obtain ⟨rfl, hm, x, rfl⟩ := load_runs hid (runs_of h6)
      obtain ⟨j, hj⟩ := Sim.exec_instr_ok h7
      cases (returnCheck_ok hm hj).1

/-- **C48.**  If a call of a compiled function with declared result type succeeds, its result, which is then on top of
the stack, conforms to the class that the name of the type denoted when the function ended. -/
theorem call_result_conforms (hw : NativesOk w) (hgen : Gen (g.pushFn k) (.fnBody fk params es body) c (fn :: g'))
    (hcode : FnCode fn c bc) (hfit : Fits bc) (hk : ∀ j, fk ≠ .constructor j) {t : TypeAnn} (ht : k.returnType = some t)
    (hi : HeapInv m.heap) (hpk : peek argc m = (.ok u, m)) (hu : Calls.target u bc receiver ups)
    (h : callFn w n argc m = (.ok (), m')) :
    ∃ g1 g2 i cls mi v, IdentGen g1 t.name i g2 ∧ SameRest mi m' ∧
      Runs w (frameOf argc bc m) ups (.instr i) mi (.done .normal) (mi.pushed (.cls cls)) ∧
      m'.Top v ∧ Conforms w m'.heap t.isNullable cls v := by
  obtain ⟨j, s, l, m1, h1, h2⟩ := call_ran hgen hcode hfit hpk hu h
  have hg : Guarded (ChecksResult t) c := hgen.guarded ht rfl fun j a b r h => by cases h; exact hk j rfl
  have hstop : s = .stop := by
    have hs := exec_signals hgen.fn_scoped h1
    cases s with
    | stop => rfl
    | normal => exact (fnBody_stops hgen hk ht h1).elim
    | _ => cases hs
  subst hstop
  obtain ⟨hid, hread, hst, htop, hc⟩ := hg.stop h1
  rename_i g1 g2 i mi cls v
  have hheap : HeapInv m1.heap := by
    have := ((exec_pres (heapStep_prims hw) j).1 bc (frameOf argc bc m) ups 0 (entered argc bc receiver m)).1 hi
    rw [fn_run hgen hcode hfit w (frameOf argc bc m) ups j, bind_ok h1] at this
    exact this
  obtain ⟨_, m2, e1, e2⟩ := Sim.bind_done h2
  cases e1
  obtain ⟨x, m3, e3, e4⟩ := Sim.bind_done e2
  obtain ⟨_, m4, e5, e6⟩ := Sim.bind_done e4
  have r3 : SameRest m1 m3 ∧ x = v := by
    unfold finishExecute at e3
    obtain ⟨_, _, e7, e8⟩ := Sim.bind_done e3
    cases e7
    split at e8
    · cases e8
    · have := pop_rest m1
      rw [e8] at this
      rw [pop_top htop] at e8
      cases e8
      exact ⟨this, rfl⟩
  obtain ⟨r3, rfl⟩ := r3
  have r4 := release_rest w (frameOf argc bc m) m3
  rw [e5] at r4
  have r5 := push_rest x m4
  rw [e6] at r5
  have r1 : SameRest mi m1 := by rw [hst]; exact ⟨rfl, rfl, rfl, rfl, rfl⟩
  have tr : ∀ {a b c : VM}, SameRest a b → SameRest b c → SameRest a c := fun h1 h2 =>
    ⟨h1.1.trans h2.1, h1.2.trans h2.2, h1.3.trans h2.3, h1.4.trans h2.4, h1.5.trans h2.5⟩
  have r6 := tr r3 (tr r4 r5)
  refine ⟨g1, g2, i, cls, mi, x, hid, tr r1 r6, hread, ?_, ?_⟩
  · unfold Dice.push at e6
    split at e6
    · rename_i hlt
      cases e6
      exact VM.top_pushed x hlt
    · cases e6
  · rw [← r6.heap]
    by_cases hcf : Conforms w m1.heap t.isNullable cls x
    · exact hcf
    · rw [conforms_error hheap _ _ _ hcf] at hc
      cases hc

end

/-- **C48.**  Every way out of a function with a declared result type, falling off its end, `return` or `!!`, compiles
to `ReturnGen`: with the result on top, the name of the type is read and the function is left if the result conforms.
A result that does not conform ends in a type error. -/
theorem result_checked {g g' : Env} {c : Code} {k : CompilerKind} {t : TypeAnn} (hr : ReturnGen g c g') (hk : g.kind = some k)
    (ht : k.returnType = some t) :
    ∃ i, IdentGen g t.name i g' ∧ ∀ (w : World) (f : Frame) (ups : Option (List Nat)) (m : VM) (v : Value), HeapInv m.heap → m.Top v →
      ∀ r m', Runs w f ups c m r m' ↔ (Runs w f ups (.instr i) m r m' ∧ r ≠ .done .normal) ∨
        ∃ u, Runs w f ups (.instr i) m (.done .normal) (m.pushed u) ∧ m' = m.wipe 1 ∧
          (((∀ cls, u ≠ .cls cls) ∧ r = .err .invalidClass) ∨
            ∃ cls, u = .cls cls ∧ ((Conforms w m.heap t.isNullable cls v ∧ r = .done .stop) ∨
              (¬ Conforms w m.heap t.isNullable cls v ∧ r = .err (typeError v)))) := by
  cases hr with
  | plain hk' h =>
    rw [hk] at hk'
    cases hk'
    rw [ht] at h
    cases h
  | typed hk' ht' hid =>
    rw [hk] at hk'
    cases hk'
    rw [ht] at ht'
    cases ht'
    refine ⟨_, hid, fun w f ups m v hi hv r m' => ?_⟩
    rw [runs_seq]
    constructor
    · rintro (h | ⟨m1, h1, h2⟩)
      · exact .inl h
      · obtain ⟨-, hm, u, rfl⟩ := load_runs hid h1
        obtain ⟨e1, e2⟩ := (runs_returnCheck hi hm hv).1 h2
        exact .inr ⟨u, h1, e1, e2⟩
    · rintro (h | ⟨u, h1, e1, e2⟩)
      · exact .inl h
      · obtain ⟨-, hm, -⟩ := load_runs hid h1
        exact .inr ⟨_, h1, (runs_returnCheck hi hm hv).2 ⟨e1, e2⟩⟩

/-! ## Example -/

namespace Findings

/-- `fn f(a: Int, b: Int?) -> Int { b }`. -/
def typed : Expr :=
  .block [.fnDecl "f" [⟨"a", some ⟨"Int", false⟩⟩, ⟨"b", some ⟨"Int", true⟩⟩] (some ⟨"Int", false⟩) (.block [] (some (.ident "b")))] none

/-- The functions to which the theorems apply: those inside of compiled programs. -/
example {bc : Bytecode} (h : compile .script typed = .ok bc) :
    ∃ (g g' : Env) (es : List Expr) (body : Option Expr) (c : Code) (fn : Ctx) (code : Bytecode), StackInv g ∧
      Gen (g.pushFn (.function (some ⟨"Int", false⟩))) (.fnBody .function
        [⟨"a", some ⟨"Int", false⟩⟩, ⟨"b", some ⟨"Int", true⟩⟩] es body) c (fn :: g') ∧ FnCode fn c code := by
  obtain ⟨fn, c, hp, -⟩ := compile_gen h
  cases hp with
  | other _ hg =>
    have inv : StackInv [{ kind := CompilerKind.script }] := ⟨List.Pairwise.nil, scopeInv_new _, by simp, trivial⟩
    cases hg with
    | chain he => cases he
    | blockExpr hb =>
    cases hb with
    | block h0 hs hseq hp =>
    have inv1 := (slotRel.trans (slotRel.pushScope h0) (slotRel.scanDecls hs) inv).1
    cases hseq with
    | seqCons hd _ =>
    cases hd with
    | chain he => cases he
    | fnDecl _ hb hc => exact ⟨_, _, _, _, _, _, _, inv1, hb, hc⟩

example : annotated (firstSlot .function) [⟨"a", some ⟨"Int", false⟩⟩, ⟨"b", some ⟨"Int", true⟩⟩] =
    [(1, ⟨"Int", false⟩), (2, ⟨"Int", true⟩)] := rfl

/-- `typed` as the compiler translates it. -/
def typedCode : Bytecode :=
  match compile .script typed with
  | .ok bc => (bc.constants.findSome? fun c => match c with | .fn code _ _ => some code | _ => none).getD bc
  | .error _ => { data := [], constants := [], slotCount := 0, upvalueCount := 0 }

/-- The outcome of a call of `typed`. -/
def typedCall (a b : Value) : Outcome Unit :=
  (callFn (world true) 30 2 { machine with ptr := 3, mem := fun j => if j = 0 then .fnScript typedCode "f" 0 else
    if j = 1 then a else if j = 2 then b else .null }).1

/-- Conforming arguments and result; a wrong argument; null where it is not allowed; null for the second parameter,
where it is allowed, but not as the result. -/
example :
    (match typedCall (.int 7) (.int 8) with | .ok () => true | _ => false) = true ∧
    (match typedCall (.bool true) (.int 8) with | .err .assertType => true | _ => false) = true ∧
    (match typedCall .null (.int 8) with | .err .assertNull => true | _ => false) = true ∧
    (match typedCall (.int 7) (.bool true) with | .err .assertType => true | _ => false) = true ∧
    (match typedCall (.int 7) .null with | .err .assertNull => true | _ => false) = true := by
  decide +kernel

end Findings

end Dice
