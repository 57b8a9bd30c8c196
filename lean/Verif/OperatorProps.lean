import Verif.Steps

/-!
# Conditional evaluation of operands

What the code of `&&`, `||`, `??` and of chains with `?` does, in terms of the runs of the code of their
operands.  The operands are arbitrary: they may have effects, fail, break out of a loop, return, or run
forever.  All statements are equivalences, so they also say when the whole runs forever: when there is no end
for it on the right side.  Runs that end in a panic (stack overflow) are left out.
-/

namespace Dice

/-! ## Logical operators -/

/-- The logical operator that is decided by the value `short` of its left side: `false` for `&&`, `true` for `||`.
`A` and `B` are the runs of the two sides. -/
inductive LogicSpec (short : Bool) (A B : VM → Res → VM → Prop) : VM → Res → VM → Prop where
  /-- The left side gives no value. -/
  | left {m m' : VM} {r : Res} (h : A m r m') (hr : r ≠ .done .normal) : LogicSpec short A B m r m'
  /-- The left side decides: its value is the result and the right side is not run. -/
  | decided {m m1 : VM} (h : A m (.done .normal) m1) (hv : m1.Top (.bool short)) (room : m1.ptr < maxStack) :
      LogicSpec short A B m (.done .normal) (m1.wipe 1)
  /-- The left side is not a boolean. -/
  | leftBad {m m1 : VM} {v : Value} (h : A m (.done .normal) m1) (hv : m1.Top v) (hb : ∀ b, v ≠ .bool b)
      (room : m1.ptr < maxStack) : LogicSpec short A B m (.err .assertBool) (m1.pushed v)
  /-- The left side does not decide, and the right side gives no value. -/
  | right {m m1 m' : VM} {r : Res} (h : A m (.done .normal) m1) (hv : m1.Top (.bool (!short))) (room : m1.ptr < maxStack)
      (hB : B (m1.wipe 1).drop r m') (hr : r ≠ .done .normal) : LogicSpec short A B m r m'
  /-- The left side does not decide: the value of the right side is the result. -/
  | value {m m1 m' : VM} {b : Bool} (h : A m (.done .normal) m1) (hv : m1.Top (.bool (!short))) (room : m1.ptr < maxStack)
      (hB : B (m1.wipe 1).drop (.done .normal) m') (hb : m'.Top (.bool b)) : LogicSpec short A B m (.done .normal) m'
  /-- The left side does not decide, and the right side is not a boolean. -/
  | rightBad {m m1 m' : VM} {v : Value} (h : A m (.done .normal) m1) (hv : m1.Top (.bool (!short)))
      (room : m1.ptr < maxStack) (hB : B (m1.wipe 1).drop (.done .normal) m') (hb : m'.Top v) (hn : ∀ b, v ≠ .bool b) :
      LogicSpec short A B m (.err .assertBool) m'

theorem then_left {A B : VM → Res → VM → Prop} {m m' : VM} {r : Res} (h : A m r m') (hr : r ≠ .done .normal) :
    Then A B m r m' := .inl ⟨h, hr⟩

theorem then_right {A B : VM → Res → VM → Prop} {m m1 m' : VM} {r : Res} (h : A m (.done .normal) m1) (h' : B m1 r m') :
    Then A B m r m' := .inr ⟨m1, h, h'⟩

theorem Res.quiet_done (s : Sig) : (Res.done s).Quiet := fun _ h => by cases h
theorem Res.quiet_err (e : RtErr) : (Res.err e).Quiet := fun _ h => by cases h

section
variable {w : World} {f : Frame} {ups : Option (List Nat)} {m m' : VM} {r : Res}

/-- A single code in a block. -/
theorem runs_block1 {c : Code} : Runs w f ups (.block [c]) m r m' ↔ Runs w f ups c m r m' := by
  rw [Code.block, runs_seq]
  constructor
  · rintro (⟨h, -⟩ | ⟨m1, h, h'⟩)
    · exact h
    · obtain ⟨rfl, rfl⟩ := runs_nop.1 h'; exact h
  · intro h
    by_cases hr : r = .done .normal
    · subst hr; exact .inr ⟨m', h, runs_nop.2 ⟨rfl, rfl⟩⟩
    · exact .inl ⟨h, hr⟩

theorem runs_block {c : Code} {cs : List Code} :
    Runs w f ups (.block (c :: cs)) m r m' ↔ Then (Runs w f ups c) (Runs w f ups (.block cs)) m r m' := runs_seq

theorem logic_code {short : Bool} {c1 c2 : Code} (hq : r.Quiet) :
    Runs w f ups (.block [c1, .num .dup 0, .op .assertBool, .skipIf short (.block [.op .pop, c2, .op .assertBool])]) m r m' ↔
      LogicSpec short (Runs w f ups c1) (Runs w f ups c2) m r m' := by
  rw [runs_block]
  constructor
  · rintro (⟨h, hr⟩ | ⟨m1, h1, h⟩)
    · exact .left h hr
    rw [runs_block] at h
    rcases h with ⟨h, hr⟩ | ⟨m2, h2, h⟩
    · obtain ⟨-, v, -, rfl, -⟩ := (runs_dup0 hq).1 h; exact absurd rfl hr
    obtain ⟨room, v, hv, -, rfl⟩ := (runs_dup0 (Res.quiet_done _)).1 h2
    have hp := VM.top_pushed v room
    rw [runs_block] at h
    rcases h with ⟨h, hr⟩ | ⟨m3, h3, h⟩
    · obtain ⟨v', hv', rfl, ⟨-, rfl⟩ | ⟨hb, rfl⟩⟩ := (runs_assertBool hq).1 h
      · exact absurd rfl hr
      · cases hp.unique hv'
        exact .leftBad h1 hv hb room
    obtain ⟨v', hv', rfl, hc⟩ := (runs_assertBool (Res.quiet_done _)).1 h3
    obtain ⟨b, hb⟩ : ∃ b, v' = .bool b := by
      rcases hc with ⟨hb, -⟩ | ⟨-, hb⟩
      · exact hb
      · cases hb
    cases hp.unique hv'
    subst hb
    rw [runs_block1, runs_skipIf_top hp, VM.drop_pushed] at h
    by_cases hb : b = short
    · subst hb
      rw [if_pos rfl] at h
      obtain ⟨rfl, rfl⟩ := h
      exact .decided h1 hv room
    · rw [if_neg hb] at h
      have hb : b = !short := by cases b <;> cases short <;> simp_all
      subst hb
      rw [runs_block] at h
      rcases h with ⟨h, hr⟩ | ⟨m4, h4, h⟩
      · obtain ⟨-, rfl, -⟩ := (runs_pop hq).1 h; exact absurd rfl hr
      obtain ⟨-, -, rfl⟩ := (runs_pop (Res.quiet_done _)).1 h4
      rw [runs_block] at h
      rcases h with ⟨h, hr⟩ | ⟨m5, h5, h⟩
      · exact .right h1 hv room h hr
      rw [runs_block1] at h
      obtain ⟨v', hv', rfl, ⟨⟨b, rfl⟩, rfl⟩ | ⟨hb, rfl⟩⟩ := (runs_assertBool hq).1 h
      · exact .value h1 hv room h5 hv'
      · exact .rightBad h1 hv room h5 hv' hb
  · have start : ∀ {m m1 : VM} {v : Value} {r : Res} {m' : VM}, Runs w f ups c1 m (.done .normal) m1 → m1.Top v → m1.ptr < maxStack →
        Runs w f ups (.block [.op .assertBool, .skipIf short (.block [.op .pop, c2, .op .assertBool])]) (m1.pushed v) r m' →
        Then (Runs w f ups c1) (Runs w f ups (.block [.num .dup 0, .op .assertBool,
          .skipIf short (.block [.op .pop, c2, .op .assertBool])])) m r m' := fun h1 hv room h =>
      then_right h1 (runs_block.2 (then_right ((runs_dup0 (Res.quiet_done _)).2 ⟨room, _, hv, rfl, rfl⟩) h))
    have next : ∀ {m m1 : VM} {b : Bool} {r : Res} {m' : VM}, Runs w f ups c1 m (.done .normal) m1 → m1.Top (.bool b) →
        m1.ptr < maxStack →
        (if b = short then r = .done .normal ∧ m' = m1.wipe 1
          else Runs w f ups (.block [.op .pop, c2, .op .assertBool]) (m1.wipe 1) r m') →
        Then (Runs w f ups c1) (Runs w f ups (.block [.num .dup 0, .op .assertBool,
          .skipIf short (.block [.op .pop, c2, .op .assertBool])])) m r m' := fun {m m1 b r m'} h1 hv room h => by
      refine start h1 hv room (runs_block.2 (then_right ((runs_assertBool (Res.quiet_done _)).2
        ⟨_, VM.top_pushed _ room, rfl, .inl ⟨⟨_, rfl⟩, rfl⟩⟩) ?_))
      rw [runs_block1, runs_skipIf_top (VM.top_pushed _ room), VM.drop_pushed]
      exact h
    intro h
    cases h with
    | left h hr => exact then_left h hr
    | decided h hv room => exact next h hv room (by rw [if_pos rfl]; exact ⟨rfl, rfl⟩)
    | leftBad h hv hb room =>
      exact start h hv room (runs_block.2 (then_left ((runs_assertBool hq).2
        ⟨_, VM.top_pushed _ room, rfl, .inr ⟨hb, rfl⟩⟩) (by simp)))
    | right h hv room hB hr =>
      refine next h hv room ?_
      rw [if_neg (by cases short <;> simp)]
      exact runs_block.2 (then_right ((runs_pop (Res.quiet_done _)).2 ⟨⟨_, VM.top_wipe hv 1⟩, rfl, rfl⟩)
        (runs_block.2 (then_left hB hr)))
    | value h hv room hB hb =>
      refine next h hv room ?_
      rw [if_neg (by cases short <;> simp)]
      exact runs_block.2 (then_right ((runs_pop (Res.quiet_done _)).2 ⟨⟨_, VM.top_wipe hv 1⟩, rfl, rfl⟩)
        (runs_block.2 (then_right hB (runs_block1.2 ((runs_assertBool hq).2 ⟨_, hb, rfl, .inl ⟨⟨_, rfl⟩, rfl⟩⟩)))))
    | rightBad h hv room hB hb hn =>
      refine next h hv room ?_
      rw [if_neg (by cases short <;> simp)]
      exact runs_block.2 (then_right ((runs_pop (Res.quiet_done _)).2 ⟨⟨_, VM.top_wipe hv 1⟩, rfl, rfl⟩)
        (runs_block.2 (then_right hB (runs_block1.2 ((runs_assertBool hq).2 ⟨_, hb, rfl, .inr ⟨hn, rfl⟩⟩)))))

end

/-- **C19.**  `a && b` -/
theorem and_short_circuits {g g' : Env} {a b : Expr} {c : Code} (h : Gen g (.expr (.binary .logicalAnd a b)) c g') :
    ∃ ca cb g1, Gen g (.expr a) ca g1 ∧ Gen g1 (.expr b) cb g' ∧ ∀ w f ups m r m', Res.Quiet r →
      (Runs w f ups c m r m' ↔ LogicSpec false (Runs w f ups ca) (Runs w f ups cb) m r m') := by
  cases h with
  | and h1 h2 => exact ⟨_, _, _, h1, h2, fun _ _ _ _ _ _ hq => logic_code hq⟩
  | binary ho => cases ho
  | chain he => cases he

/-- **C19.**  `a || b` -/
theorem or_short_circuits {g g' : Env} {a b : Expr} {c : Code} (h : Gen g (.expr (.binary .logicalOr a b)) c g') :
    ∃ ca cb g1, Gen g (.expr a) ca g1 ∧ Gen g1 (.expr b) cb g' ∧ ∀ w f ups m r m', Res.Quiet r →
      (Runs w f ups c m r m' ↔ LogicSpec true (Runs w f ups ca) (Runs w f ups cb) m r m') := by
  cases h with
  | or h1 h2 => exact ⟨_, _, _, h1, h2, fun _ _ _ _ _ _ hq => logic_code hq⟩
  | binary ho => cases ho
  | chain he => cases he

/-- `false && x` is false whatever `x` is: it is not run. -/
example {g g' : Env} {x : Expr} {c : Code} (h : Gen g (.expr (.binary .logicalAnd (.bool false) x)) c g') (w : World)
    (f : Frame) (ups : Option (List Nat)) (m : VM) (room : m.ptr + 1 < maxStack) :
    Runs w f ups c m (.done .normal) ((m.pushed (.bool false)).wipe 1) := by
  obtain ⟨ca, cb, g1, ha, -, hr⟩ := and_short_circuits h
  cases ha with
  | chain he => cases he
  | bool =>
    refine (hr w f ups m _ _ (Res.quiet_done _)).2 (.decided ?_ (VM.top_pushed _ (by omega)) room)
    exact (push_runs (v := .bool false) (fun _ => rfl) (Res.quiet_done _)).2 ⟨by omega, rfl, rfl⟩

/-- There is such code. -/
example (g : Env) : ∃ c, Gen g (.expr (.binary .logicalAnd (.bool false) .null)) c g := ⟨_, .and .bool .null⟩

/-- `true && ()` fails. -/
example {g g' : Env} {c : Code} (h : Gen g (.expr (.binary .logicalAnd (.bool true) .unit)) c g') (w : World)
    (f : Frame) (ups : Option (List Nat)) (m : VM) (room : m.ptr + 1 < maxStack) :
    ∃ m', Runs w f ups c m (.err .assertBool) m' := by
  obtain ⟨ca, cb, g1, ha, hb, hr⟩ := and_short_circuits h
  cases ha with
  | chain he => cases he
  | bool =>
    cases hb with
    | chain he => cases he
    | unit =>
      have top := VM.top_pushed (m := m) (.bool true) (by omega)
      have room' : ((m.pushed (.bool true)).wipe 1).drop.ptr < maxStack := by
        show m.ptr + 1 - 1 < maxStack
        omega
      refine ⟨_, (hr w f ups m _ _ (Res.quiet_err _)).2 (.rightBad (v := .unit) ?_ top room
        ((runs_pushUnit (Res.quiet_done _)).2 ⟨room', rfl, rfl⟩) (VM.top_pushed _ room') (by intro b h; cases h))⟩
      exact (push_runs (v := .bool true) (fun _ => rfl) (Res.quiet_done _)).2 ⟨by omega, rfl, rfl⟩

/-! ## Coalescing -/

/-- `a ?? b`. -/
inductive CoalesceSpec (A B : VM → Res → VM → Prop) : VM → Res → VM → Prop where
  /-- The left side gives no value. -/
  | left {m m' : VM} {r : Res} (h : A m r m') (hr : r ≠ .done .normal) : CoalesceSpec A B m r m'
  /-- The left side is not null: it is the result, and the right side is not run. -/
  | value {m m1 : VM} {v : Value} (h : A m (.done .normal) m1) (hv : m1.Top v) (hn : v ≠ .null) (room : m1.ptr + 1 < maxStack) :
      CoalesceSpec A B m (.done .normal) (m1.wipe 2)
  /-- The left side is null: the right side in its place. -/
  | null {m m1 m' : VM} {r : Res} (h : A m (.done .normal) m1) (hv : m1.Top .null) (room : m1.ptr + 1 < maxStack)
      (hB : B (m1.wipe 2).drop r m') : CoalesceSpec A B m r m'

theorem isNull_iff (v : Value) : v.isNull = true ↔ v = .null := by cases v <;> simp [Value.isNull]

theorem VM.wipe_retop_drop (m : VM) (v x : Value) : (((m.pushed v).wipe 1).retop x).drop = m.wipe 2 := by
  unfold VM.drop VM.pushed VM.wipe VM.retop
  simp only [Nat.add_sub_cancel, VM.mk.injEq, and_self, and_true]
  funext j
  unfold upd memClear
  by_cases h : j = m.ptr
  · rw [if_pos h, if_pos (by omega)]
  · rw [if_neg h, if_neg h]
    by_cases h2 : m.ptr + 1 ≤ j ∧ j < m.ptr + 1 + 1
    · rw [if_pos h2, if_pos (by omega)]
    · rw [if_neg h2, if_neg (by omega)]
      exact if_neg h

section
variable {w : World} {f : Frame} {ups : Option (List Nat)} {m m' : VM} {r : Res}

/-- The comparison of the value on top with null: leaves a boolean above it. -/
theorem nullTest_code {o : Opcode} {n : Bool} (ho : (o = .equal ∧ n = true) ∨ (o = .notEqual ∧ n = false)) {cs : List Code}
    (hq : r.Quiet) : Runs w f ups (.block (.num .dup 0 :: .op .pushNull :: .op o :: cs)) m r m' ↔
      m.ptr + 1 < maxStack ∧ ∃ v, m.Top v ∧
        Runs w f ups (.block cs) (((m.pushed v).wipe 1).retop (.bool (v.isNull == n))) r m' := by
  rw [runs_block]
  constructor
  · rintro (⟨h, hr⟩ | ⟨m1, h1, h⟩)
    · obtain ⟨-, v, -, rfl, -⟩ := (runs_dup0 hq).1 h; exact absurd rfl hr
    obtain ⟨room, v, hv, -, rfl⟩ := (runs_dup0 (Res.quiet_done _)).1 h1
    rw [runs_block] at h
    rcases h with ⟨h, hr⟩ | ⟨m2, h2, h⟩
    · obtain ⟨-, rfl, -⟩ := (runs_pushNull hq).1 h; exact absurd rfl hr
    obtain ⟨room2, -, rfl⟩ := (runs_pushNull (Res.quiet_done _)).1 h2
    rw [runs_block] at h
    rcases h with ⟨h, hr⟩ | ⟨m3, h3, h⟩
    · obtain ⟨rfl, -⟩ := (runs_isNull ho (VM.top_pushed v room) room2).1 h; exact absurd rfl hr
    obtain ⟨-, rfl⟩ := (runs_isNull ho (VM.top_pushed v room) room2).1 h3
    exact ⟨room2, v, hv, h⟩
  · rintro ⟨room2, v, hv, h⟩
    have room : m.ptr < maxStack := by omega
    exact then_right ((runs_dup0 (Res.quiet_done _)).2 ⟨room, v, hv, rfl, rfl⟩)
      (runs_block.2 (then_right ((runs_pushNull (Res.quiet_done _)).2 ⟨room2, rfl, rfl⟩)
        (runs_block.2 (then_right ((runs_isNull ho (VM.top_pushed v room) room2).2 ⟨rfl, rfl⟩) h))))

theorem VM.top_nullTest {m : VM} {v x : Value} (room : m.ptr < maxStack) : (((m.pushed v).wipe 1).retop x).Top x :=
  VM.top_retop (VM.top_wipe (VM.top_pushed v room) 1)

theorem VM.ptr_pushed (m : VM) (v : Value) : (m.pushed v).ptr = m.ptr + 1 := rfl

end

/-- **C20.**  `a ?? b` -/
theorem coalesce_left_unless_null {g g' : Env} {a b : Expr} {c : Code} (h : Gen g (.expr (.binary .coalesce a b)) c g') :
    ∃ ca cb g1, Gen g (.expr a) ca g1 ∧ Gen g1 (.expr b) cb g' ∧ ∀ w f ups m r m', Res.Quiet r →
      (Runs w f ups c m r m' ↔ CoalesceSpec (Runs w f ups ca) (Runs w f ups cb) m r m') := by
  cases h with
  | binary ho => cases ho
  | chain he => cases he
  | coalesce h1 h2 =>
    refine ⟨_, _, _, h1, h2, fun w f ups m r m' hq => ?_⟩
    rw [runs_block]
    constructor
    · rintro (⟨h, hr⟩ | ⟨m1, h1, h⟩)
      · exact .left h hr
      · obtain ⟨room, v, hv, h⟩ := (nullTest_code (.inl ⟨rfl, rfl⟩) hq).1 h
        rw [runs_block1, runs_skipIf_top (VM.top_nullTest (by omega)), VM.wipe_retop_drop] at h
        by_cases hn : v.isNull = true
        · rw [if_neg (by simp [hn])] at h
          obtain rfl := (isNull_iff v).1 hn
          rw [runs_block] at h
          rcases h with ⟨h, hr⟩ | ⟨m2, h2, h⟩
          · obtain ⟨-, rfl, -⟩ := (runs_pop hq).1 h; exact absurd rfl hr
          · obtain ⟨-, -, rfl⟩ := (runs_pop (Res.quiet_done _)).1 h2
            exact .null h1 hv room (runs_block1.1 h)
        · rw [if_pos (by simp [hn])] at h
          obtain ⟨rfl, rfl⟩ := h
          exact .value h1 hv (fun h => hn ((isNull_iff v).2 h)) room
    · intro h
      cases h with
      | left h hr => exact then_left h hr
      | value h1 hv hn room =>
        refine then_right h1 ((nullTest_code (.inl ⟨rfl, rfl⟩) hq).2 ⟨room, _, hv, ?_⟩)
        rw [runs_block1, runs_skipIf_top (VM.top_nullTest (by omega)), VM.wipe_retop_drop]
        rw [if_pos (by have := mt (isNull_iff _).1 hn; simpa using this)]
        exact ⟨rfl, rfl⟩
      | null h1 hv room hB =>
        refine then_right h1 ((nullTest_code (.inl ⟨rfl, rfl⟩) hq).2 ⟨room, _, hv, ?_⟩)
        rw [runs_block1, runs_skipIf_top (VM.top_nullTest (by omega)), VM.wipe_retop_drop]
        rw [if_neg (by simp [Value.isNull])]
        exact runs_block.2 (then_right ((runs_pop (Res.quiet_done _)).2 ⟨⟨_, VM.top_wipe hv 2⟩, rfl, rfl⟩)
          (runs_block1.2 hB))

/-- `null ?? ()` is `()`. -/
example {g g' : Env} {c : Code} (h : Gen g (.expr (.binary .coalesce .null .unit)) c g') (w : World)
    (f : Frame) (ups : Option (List Nat)) (m : VM) (room : m.ptr + 2 < maxStack) :
    ∃ m', Runs w f ups c m (.done .normal) m' ∧ m'.Top .unit ∧ m'.ptr = m.ptr + 1 := by
  obtain ⟨ca, cb, g1, ha, hb, hr⟩ := coalesce_left_unless_null h
  cases ha with
  | chain he => cases he
  | null =>
    cases hb with
    | chain he => cases he
    | unit =>
      have room' : ((m.pushed .null).wipe 2).drop.ptr < maxStack := by
        show m.ptr + 1 - 1 < maxStack
        omega
      have room2 : (m.pushed .null).ptr + 1 < maxStack := room
      exact ⟨_, (hr w f ups m _ _ (Res.quiet_done _)).2 (.null
        ((runs_pushNull (Res.quiet_done _)).2 ⟨by omega, rfl, rfl⟩) (VM.top_pushed _ (by omega)) room2
        ((runs_pushUnit (Res.quiet_done _)).2 ⟨room', rfl, rfl⟩)), VM.top_pushed _ room', rfl⟩

/-- There is such code. -/
example (g : Env) : ∃ c, Gen g (.expr (.binary .coalesce .null .unit)) c g := ⟨_, .coalesce .null .unit⟩

end Dice
