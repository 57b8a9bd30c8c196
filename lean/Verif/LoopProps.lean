import Verif.OrderProps

/-!
# Loops
-/

namespace Dice

/-- `while` with the condition `A` and the body `B` (which leaves no value). -/
inductive WhileSpec (A B : VM → Res → VM → Prop) : VM → Res → VM → Prop where
  /-- The condition is false: the loop ends. -/
  | stop {m m1 : VM} (h : A m (.done .normal) m1) (hv : m1.Top (.bool false)) : WhileSpec A B m (.done .normal) m1.drop
  /-- The condition is true, the body runs to its end or to a `continue`, and the loop starts again. -/
  | again {m m1 m2 m' : VM} {s : Sig} {r : Res} (h : A m (.done .normal) m1) (hv : m1.Top (.bool true))
      (hb : B m1.drop (.done s) m2) (hs : s = .normal ∨ s = .cont) (hr : WhileSpec A B m2 r m') : WhileSpec A B m r m'
  /-- The condition is true and the body leaves the loop with `break`. -/
  | brk {m m1 m' : VM} (h : A m (.done .normal) m1) (hv : m1.Top (.bool true)) (hb : B m1.drop (.done .brk) m') :
      WhileSpec A B m (.done .normal) m'
  /-- The condition is true and the body fails, or leaves the function or the enclosing chain. -/
  | leave {m m1 m' : VM} {r : Res} (h : A m (.done .normal) m1) (hv : m1.Top (.bool true)) (hb : B m1.drop r m')
      (hr : r ≠ .done .normal ∧ r ≠ .done .cont ∧ r ≠ .done .brk) : WhileSpec A B m r m'
  /-- The condition is not a boolean. -/
  | bad {m m1 : VM} {v : Value} (h : A m (.done .normal) m1) (hv : m1.Top v) (hn : ∀ b, v ≠ .bool b) :
      WhileSpec A B m (.err .invalidBool) m1.drop
  /-- The condition itself says `continue`. -/
  | condCont {m m1 m' : VM} {r : Res} (h : A m (.done .cont) m1) (hr : WhileSpec A B m1 r m') : WhileSpec A B m r m'
  /-- The condition itself says `break`. -/
  | condBrk {m m' : VM} (h : A m (.done .brk) m') : WhileSpec A B m (.done .normal) m'
  /-- The condition fails, or leaves the function or the enclosing chain. -/
  | condLeave {m m' : VM} {r : Res} (h : A m r m') (hr : r ≠ .done .normal ∧ r ≠ .done .cont ∧ r ≠ .done .brk) :
      WhileSpec A B m r m'

section
variable {w : World} {f : Frame} {ups : Option (List Nat)} {m m' : VM} {r : Res}

theorem runs_breakIf_quiet {b : Bool} (hq : r.Quiet) : Runs w f ups (.breakIf b) m r m' ↔
    ∃ v, m.Top v ∧ m' = m.drop ∧
      ((∃ x, v = .bool x ∧ r = .done (if x = b then .brk else .normal)) ∨ ((∀ x, v ≠ .bool x) ∧ r = .err .invalidBool)) := by
  rw [runs_breakIf]
  rcases top_or m with ⟨v, h⟩ | h
  · by_cases hb : ∃ x, v = .bool x
    · obtain ⟨x, rfl⟩ := hb
      rw [popBool_top h]
      constructor
      · rintro (⟨h', -⟩ | ⟨x', m1, h', rfl, rfl⟩)
        · cases h'
        · cases h'; exact ⟨_, h, rfl, .inl ⟨x, rfl, rfl⟩⟩
      · rintro ⟨v', hv', rfl, ⟨x', rfl, rfl⟩ | ⟨hn, -⟩⟩
        · cases h.unique hv'; exact .inr ⟨_, _, rfl, rfl, rfl⟩
        · cases h.unique hv'; exact absurd rfl (hn x)
    · rw [popBool_bad h (fun b hv => hb ⟨b, hv⟩)]
      constructor
      · rintro (⟨h', rfl⟩ | ⟨x', m1, h', -⟩)
        · cases h'; exact ⟨_, h, rfl, .inr ⟨fun x hv => hb ⟨x, hv⟩, rfl⟩⟩
        · cases h'
      · rintro ⟨v', hv', rfl, ⟨x', rfl, rfl⟩ | ⟨hn, rfl⟩⟩
        · cases h.unique hv'; exact absurd ⟨x', rfl⟩ hb
        · exact .inl ⟨rfl, rfl⟩
  · rw [popBool_no h]
    constructor
    · rintro (⟨h', -⟩ | ⟨x', m1, h', -⟩)
      · cases h'; exact absurd rfl (hq _)
      · cases h'
    · rintro ⟨v', hv', -⟩
      have := hv'.pos
      have := hv'.max
      omega

/-- One round of `while`. -/
theorem while_round {c1 c2 : Code} (hq : r.Quiet) : Runs w f ups (.block [c1, .breakIf false, c2]) m r m' ↔
    (Runs w f ups c1 m r m' ∧ r ≠ .done .normal) ∨ ∃ m1 v, Runs w f ups c1 m (.done .normal) m1 ∧ m1.Top v ∧
      ((v = .bool false ∧ r = .done .brk ∧ m' = m1.drop) ∨ (v = .bool true ∧ Runs w f ups c2 m1.drop r m') ∨
        ((∀ b, v ≠ .bool b) ∧ r = .err .invalidBool ∧ m' = m1.drop)) := by
  rw [runs_block]
  constructor
  · rintro (h | ⟨m1, h1, h⟩)
    · exact .inl h
    · refine .inr ⟨m1, ?_⟩
      rw [runs_block] at h
      rcases h with ⟨h, hr⟩ | ⟨m2, h2, h⟩
      · obtain ⟨v, hv, rfl, ⟨x, rfl, rfl⟩ | ⟨hn, rfl⟩⟩ := (runs_breakIf_quiet hq).1 h
        · cases x with
          | true => exact absurd rfl hr
          | false => exact ⟨_, h1, hv, .inl ⟨rfl, rfl, rfl⟩⟩
        · exact ⟨_, h1, hv, .inr (.inr ⟨hn, rfl, rfl⟩)⟩
      · obtain ⟨v, hv, rfl, ⟨x, rfl, hx⟩ | ⟨hn, hx⟩⟩ := (runs_breakIf_quiet (Res.quiet_done _)).1 h2
        · cases x with
          | true => exact ⟨_, h1, hv, .inr (.inl ⟨rfl, runs_block1.1 h⟩)⟩
          | false => cases hx
        · cases hx
  · rintro (h | ⟨m1, v, h1, hv, h⟩)
    · exact .inl h
    · refine .inr ⟨m1, h1, runs_block.2 ?_⟩
      rcases h with ⟨rfl, rfl, rfl⟩ | ⟨rfl, h⟩ | ⟨hn, rfl, rfl⟩
      · exact .inl ⟨(runs_breakIf_quiet hq).2 ⟨_, hv, rfl, .inl ⟨_, rfl, rfl⟩⟩, by simp⟩
      · exact .inr ⟨_, (runs_breakIf_quiet (Res.quiet_done _)).2 ⟨_, hv, rfl, .inl ⟨_, rfl, rfl⟩⟩, runs_block1.2 h⟩
      · exact .inl ⟨(runs_breakIf_quiet hq).2 ⟨_, hv, rfl, .inr ⟨hn, rfl⟩⟩, by simp⟩

theorem while_code {c1 c2 : Code} (hq : r.Quiet) : Runs w f ups (.loop (.block [c1, .breakIf false, c2])) m r m' ↔
    WhileSpec (Runs w f ups c1) (Runs w f ups c2) m r m' := by
  rw [runs_loop]
  constructor
  · intro h
    induction h with
    | next hs h _ ih =>
      rcases (while_round (Res.quiet_done _)).1 h with ⟨h, hr⟩ | ⟨m1, v, h1, hv, ⟨rfl, hx, -⟩ | ⟨rfl, h2⟩ | ⟨-, hx, -⟩⟩
      · rcases hs with rfl | rfl
        · exact absurd rfl hr
        · exact .condCont h (ih hq)
      · rcases hs with rfl | rfl <;> cases hx
      · exact .again h1 hv h2 hs (ih hq)
      · cases hx
    | brk h =>
      rcases (while_round (Res.quiet_done _)).1 h with ⟨h, hr⟩ | ⟨m1, v, h1, hv, ⟨rfl, -, rfl⟩ | ⟨rfl, h2⟩ | ⟨-, hx, -⟩⟩
      · exact .condBrk h
      · exact .stop h1 hv
      · exact .brk h1 hv h2
      · cases hx
    | leave hr h =>
      rcases (while_round hq).1 h with ⟨h, -⟩ | ⟨m1, v, h1, hv, ⟨-, rfl, -⟩ | ⟨rfl, h2⟩ | ⟨hn, rfl, rfl⟩⟩
      · exact .condLeave h hr
      · exact absurd rfl hr.2.2
      · exact .leave h1 hv h2 hr
      · exact .bad h1 hv hn
  · intro h
    induction h with
    | stop h hv => exact .brk ((while_round (Res.quiet_done _)).2 (.inr ⟨_, _, h, hv, .inl ⟨rfl, rfl, rfl⟩⟩))
    | again h hv hb hs _ ih =>
      exact .next hs ((while_round (Res.quiet_done _)).2 (.inr ⟨_, _, h, hv, .inr (.inl ⟨rfl, hb⟩)⟩)) (ih hq)
    | brk h hv hb => exact .brk ((while_round (Res.quiet_done _)).2 (.inr ⟨_, _, h, hv, .inr (.inl ⟨rfl, hb⟩)⟩))
    | leave h hv hb hr => exact .leave hr ((while_round hq).2 (.inr ⟨_, _, h, hv, .inr (.inl ⟨rfl, hb⟩)⟩))
    | bad h hv hn => exact .leave (by simp) ((while_round hq).2 (.inr ⟨_, _, h, hv, .inr (.inr ⟨hn, rfl, rfl⟩)⟩))
    | condCont h _ ih =>
      exact .next (.inr rfl) ((while_round (Res.quiet_done _)).2 (.inl ⟨h, by simp⟩)) (ih hq)
    | condBrk h => exact .brk ((while_round (Res.quiet_done _)).2 (.inl ⟨h, by simp⟩))
    | condLeave h hr => exact .leave hr ((while_round hq).2 (.inl ⟨h, hr.1⟩))

end

/-- A loop and the unit it yields. -/
inductive YieldsUnit (L : VM → Res → VM → Prop) : VM → Res → VM → Prop where
  | unit {m m1 : VM} (h : L m (.done .normal) m1) (room : m1.ptr < maxStack) : YieldsUnit L m (.done .normal) (m1.pushed .unit)
  | left {m m' : VM} {r : Res} (h : L m r m') (hr : r ≠ .done .normal) : YieldsUnit L m r m'

theorem yields_unit {w : World} {f : Frame} {ups : Option (List Nat)} {m m' : VM} {r : Res} {c : Code} (hq : r.Quiet) :
    Runs w f ups (.seq c (.op .pushUnit)) m r m' ↔ YieldsUnit (Runs w f ups c) m r m' := by
  rw [runs_seq]
  constructor
  · rintro (⟨h, hr⟩ | ⟨m1, h, h'⟩)
    · exact .left h hr
    · obtain ⟨room, rfl, rfl⟩ := (runs_pushUnit hq).1 h'
      exact .unit h room
  · intro h
    cases h with
    | unit h room => exact .inr ⟨_, h, (runs_pushUnit hq).2 ⟨room, rfl, rfl⟩⟩
    | left h hr => exact .inl ⟨h, hr⟩

theorem YieldsUnit.congr {L L' : VM → Res → VM → Prop} (h : ∀ m r m', r.Quiet → (L m r m' ↔ L' m r m')) {m m' : VM} {r : Res}
    (hq : r.Quiet) : YieldsUnit L m r m' ↔ YieldsUnit L' m r m' := by
  constructor
  · intro h'
    cases h' with
    | unit h1 room => exact .unit ((h _ _ _ (Res.quiet_done _)).1 h1) room
    | left h1 hr => exact .left ((h _ _ _ hq).1 h1) hr
  · intro h'
    cases h' with
    | unit h1 room => exact .unit ((h _ _ _ (Res.quiet_done _)).2 h1) room
    | left h1 hr => exact .left ((h _ _ _ hq).2 h1) hr

/-- **C22.**  `while` -/
theorem while_repeats {g g' : Env} {a : Expr} {es : List Expr} {t : Option Expr} {c : Code}
    (h : Gen g (.expr (.whileLoop a (.block es t))) c g') :
    ∃ ca cb g1 g2 g3, Gen g1 (.expr a) ca g2 ∧ Gen g2 (.block .loop es t) cb g3 ∧ ∀ w f ups m r m', Res.Quiet r →
      (Runs w f ups c m r m' ↔ YieldsUnit (WhileSpec (Runs w f ups ca) (Runs w f ups cb)) m r m') := by
  cases h with
  | chain he => cases he
  | whileLoop _ h1 h2 =>
    exact ⟨_, _, _, _, _, h1, h2, fun w f ups m r m' hq =>
      (yields_unit hq).trans (YieldsUnit.congr (fun _ _ _ hq => while_code hq) hq)⟩

/-- **C22.**  `loop`: `Rounds` repeats until `break` or until the body fails or leaves the function. -/
theorem loop_repeats {g g' : Env} {es : List Expr} {t : Option Expr} {c : Code}
    (h : Gen g (.expr (.loop (.block es t))) c g') :
    ∃ cb g1 g2, Gen g1 (.block .loop es t) cb g2 ∧ ∀ w f ups m r m', Res.Quiet r →
      (Runs w f ups c m r m' ↔ YieldsUnit (Rounds (Runs w f ups cb)) m r m') := by
  cases h with
  | chain he => cases he
  | loop _ h =>
    exact ⟨_, _, _, h, fun w f ups m r m' hq =>
      (yields_unit hq).trans (YieldsUnit.congr (fun _ _ _ _ => runs_loop) hq)⟩

theorem Rounds.not_brk {A : VM → Res → VM → Prop} {m m' : VM} {r : Res} (h : Rounds A m r m') :
    r ≠ .done .brk ∧ r ≠ .done .cont := by
  induction h with
  | next _ _ _ ih => exact ih
  | brk _ => simp
  | leave hr _ => exact ⟨hr.2.2, hr.2.1⟩

/-- The code of a loop body, with its break and continue, never breaks out of more than that loop. -/
theorem loop_catches {g g' : Env} {e : Expr} {c : Code} (h : Gen g (.expr e) c g')
    (he : (∃ es t, e = .loop (.block es t)) ∨ (∃ a es t, e = .whileLoop a (.block es t))) {w : World} {f : Frame}
    {ups : Option (List Nat)} {m m' : VM} {r : Res} (hr : Runs w f ups c m r m') : r ≠ .done .brk ∧ r ≠ .done .cont := by
  by_cases hq : r.Quiet
  · rcases he with ⟨es, t, rfl⟩ | ⟨a, es, t, rfl⟩
    · cases h with
      | chain he => cases he
      | loop _ h =>
        rcases (yields_unit hq).1 hr with ⟨h, _⟩ | ⟨h, hr⟩
        · simp
        · exact (runs_loop.1 h).not_brk
    · cases h with
      | chain he => cases he
      | whileLoop _ h1 h2 =>
        rcases (yields_unit hq).1 hr with ⟨h, _⟩ | ⟨h, hr⟩
        · simp
        · exact (runs_loop.1 h).not_brk
  · constructor <;> intro h <;> subst h <;> exact hq (Res.quiet_done _)

/-- `while true { break }` and `loop { break }` have code. -/
example : ∃ c g', Gen [{ kind := .script }] (.expr (.whileLoop (.bool true) (.block [] (some .break_)))) c g' :=
  ⟨_, _, .whileLoop rfl .bool (.block rfl rfl (.seqNil (.elsSome (.break_ rfl))) rfl) rfl⟩

example : ∃ c g', Gen [{ kind := .script }] (.expr (.loop (.block [] (some .break_)))) c g' :=
  ⟨_, _, .loop rfl (.block rfl rfl (.seqNil (.elsSome (.break_ rfl))) rfl) rfl⟩

/-- `loop { break }` ends with `()`. -/
example {g' : Env} {c : Code} (h : Gen [{ kind := .script }] (.expr (.loop (.block [] (some .break_)))) c g')
    (w : World) (f : Frame) (ups : Option (List Nat)) (m : VM) (room : m.ptr < maxStack) :
    Runs w f ups c m (.done .normal) (m.pushed .unit) := by
  obtain ⟨cb, g1, g2, hb, hr⟩ := loop_repeats h
  cases hb with
  | block h0 hs h1 hp =>
    cases h1 with
    | seqNil h1 =>
      cases h1 with
      | elsSome h1 =>
        cases h1 with
        | chain he => cases he
        | break_ =>
          exact (hr _ _ _ _ _ _ (Res.quiet_done _)).2
            (.unit (.brk (runs_block.2 (then_left (runs_brk.2 ⟨rfl, rfl⟩) (by simp)))) room)

/-- `while true { break }` too. -/
example {g' : Env} {c : Code} (h : Gen [{ kind := .script }] (.expr (.whileLoop (.bool true) (.block [] (some .break_)))) c g')
    (w : World) (f : Frame) (ups : Option (List Nat)) (m : VM) (room : m.ptr < maxStack) :
    ∃ m', Runs w f ups c m (.done .normal) m' ∧ m'.Top .unit ∧ m'.ptr = m.ptr + 1 := by
  obtain ⟨ca, cb, g1, g2, g3, ha, hb, hr⟩ := while_repeats h
  cases ha with
  | chain he => cases he
  | bool =>
    cases hb with
    | block h0 hs h1 hp =>
      cases h1 with
      | seqNil h1 =>
        cases h1 with
        | elsSome h1 =>
          cases h1 with
          | chain he => cases he
          | break_ =>
            refine ⟨_, (hr _ _ _ _ _ _ (Res.quiet_done _)).2 (.unit (.brk
              ((push_runs (v := .bool true) (fun _ => rfl) (Res.quiet_done _)).2 ⟨room, rfl, rfl⟩) (VM.top_pushed _ room)
              (runs_block.2 (then_left (runs_brk.2 ⟨rfl, rfl⟩) (by simp)))) ?_), VM.top_pushed _ ?_, rfl⟩
            all_goals exact room

end Dice
