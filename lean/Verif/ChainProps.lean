import Verif.OperatorProps
import Verif.GenShape

/-!
# Chains with `?`
-/

namespace Dice

/-- `e?` inside a chain. -/
inductive NullPropSpec (A : VM → Res → VM → Prop) : VM → Res → VM → Prop where
  /-- The operand gives no value. -/
  | left {m m' : VM} {r : Res} (h : A m r m') (hr : r ≠ .done .normal) : NullPropSpec A m r m'
  /-- The operand is not null: the chain goes on with it. -/
  | value {m m1 : VM} {v : Value} (h : A m (.done .normal) m1) (hv : m1.Top v) (hn : v ≠ .null) (room : m1.ptr + 1 < maxStack) :
      NullPropSpec A m (.done .normal) (m1.wipe 2)
  /-- The operand is null: the chain is left, with the null on the stack. -/
  | null {m m1 : VM} (h : A m (.done .normal) m1) (hv : m1.Top .null) (room : m1.ptr + 1 < maxStack) :
      NullPropSpec A m (.done .exit) (m1.wipe 2)

/-- **C20.**  What `e?` does inside its chain. -/
theorem nullProp_exits_on_null {g g' : Env} {e : Expr} {c : Code} (h : Gen g (.link (.nullProp e)) c g') :
    ∃ ce, Gen g (.expr e) ce g' ∧ ∀ w f ups m r m', Res.Quiet r →
      (Runs w f ups c m r m' ↔ NullPropSpec (Runs w f ups ce) m r m') := by
  cases h with
  | nullProp h1 =>
    refine ⟨_, h1, fun w f ups m r m' hq => ?_⟩
    rw [runs_block]
    have test : ∀ {m1 : VM} {v : Value}, m1.Top v → m1.ptr + 1 < maxStack →
        (Runs w f ups (.block [.exitIf false]) (((m1.pushed v).wipe 1).retop (.bool (v.isNull == false))) r m' ↔
          r = .done (if v.isNull then .exit else .normal) ∧ m' = m1.wipe 2) := by
      intro m1 v hv room
      rw [runs_block1, runs_exitIf, popBool_top (VM.top_nullTest (by omega)), VM.wipe_retop_drop]
      have he : (if (v.isNull == false) = false then Sig.exit else .normal) = if v.isNull then .exit else .normal := by
        cases v.isNull <;> rfl
      constructor
      · rintro (⟨h, -⟩ | ⟨x', m1, h, h'⟩)
        · cases h
        · cases h; rw [← he]; exact h'
      · intro h'
        rw [← he] at h'
        exact .inr ⟨_, _, rfl, h'⟩
    constructor
    · rintro (⟨h, hr⟩ | ⟨m1, h1, h⟩)
      · exact .left h hr
      · obtain ⟨room, v, hv, h⟩ := (nullTest_code (.inr ⟨rfl, rfl⟩) hq).1 h
        obtain ⟨rfl, rfl⟩ := (test hv room).1 h
        by_cases hn : v.isNull = true
        · obtain rfl := (isNull_iff v).1 hn
          exact .null h1 hv room
        · rw [if_neg hn]
          exact .value h1 hv (fun h => hn ((isNull_iff v).2 h)) room
    · intro h
      cases h with
      | left h hr => exact then_left h hr
      | value h1 hv hn room =>
        refine then_right h1 ((nullTest_code (.inr ⟨rfl, rfl⟩) hq).2 ⟨room, _, hv, (test hv room).2 ⟨?_, rfl⟩⟩)
        rw [if_neg (mt (isNull_iff _).1 hn)]
      | null h1 hv room =>
        exact then_right h1 ((nullTest_code (.inr ⟨rfl, rfl⟩) hq).2 ⟨room, _, hv, (test hv room).2 ⟨rfl, rfl⟩⟩)

/-- `q` is the part of the chain `e` from which on the chain goes: `q.f`, `q[i]`, `q(…)`, `q?`, `q!!` and so on. -/
inductive Spine (q : Expr) : Expr → Prop where
  | here : Spine q q
  | field {e : Expr} {x : String} (h : Spine q e) : Spine q (.field e x)
  | index {e i : Expr} (h : Spine q e) : Spine q (.index e i)
  | call {e : Expr} {es : List Expr} (h : Spine q e) : Spine q (.call e es)
  | nullProp {e : Expr} (h : Spine q e) : Spine q (.nullProp e)
  | errProp {e : Expr} (h : Spine q e) : Spine q (.errProp e)

theorem Spine.isLink {x e : Expr} (h : Spine (.nullProp x) e) : e.isLink = true := by cases h <;> rfl

theorem setCallDepth_depth {g g' : Env} {d e : Nat} (h : g.setCallDepth e = some g') (hd : g.callDepth = some d) :
    g'.callDepth = some e := by
  rw [callDepth_shape] at hd ⊢
  rw [(setCallDepth_shape h).1]
  exact Nesting.topCalls_setCalls hd

/-- The code of a link expression: its chain. -/
theorem Gen.link_code {g g' : Env} {e : Expr} {c : Code} (h : Gen g (.expr e) c g') (he : e.isLink = true) {d : Nat}
    (hd : g.callDepth = some d) :
    ∃ g1 c1 g2, g.setCallDepth (d + 1) = some g1 ∧ Gen g1 (.link e) c1 g2 ∧ c = (if d = 0 then .chain c1 else c1) := by
  cases h with
  | @chain _ g1 g2 _ _ c1 d0 d' _ hd0 h0 h hd' h1 =>
    rw [hd] at hd0
    cases hd0
    refine ⟨g1, c1, g2, h0, h, ?_⟩
    have e1 : g1.callDepth = some (d + 1) := by
      exact setCallDepth_depth h0 hd
    have e2 : g2.callDepth = some (d + 1) := by rw [callDepth_shape, h.shape, ← callDepth_shape, e1]
    rw [hd'] at e2
    cases e2
    rfl
  | _ => cases he

/-- Whenever the run of `x` in the code gives null, the code leaves the enclosing chain with that null. -/
def ExitsOn (x : Expr) (c : Code) (s : Sig) : Prop :=
  ∃ g0 cx g1, Gen g0 (.expr x) cx g1 ∧ ∀ w f ups m m1, Runs w f ups cx m (.done .normal) m1 → m1.Top .null →
    m1.ptr + 1 < maxStack → Runs w f ups c m (.done s) (m1.wipe 2)

theorem ExitsOn.seq {x : Expr} {c : Code} (h : ExitsOn x c .exit) (c' : Code) : ExitsOn x (.seq c c') .exit := by
  obtain ⟨g0, cx, g1, hx, hr⟩ := h
  exact ⟨g0, cx, g1, hx, fun w f ups m m1 h1 hv room =>
    runs_seq.2 (then_left (hr w f ups m m1 h1 hv room) (by simp))⟩

theorem spine_inner {x e : Expr} {g g1 : Env} {ce : Code} {d : Nat} (hd : g.callDepth = some (d + 1)) (he : e.isLink = true)
    (h : Gen g (.expr e) ce g1)
    (ih : ∀ {g g' : Env} {c : Code}, Gen g (.link e) c g' → ∀ {d : Nat}, g.callDepth = some (d + 1) → ExitsOn x c .exit) :
    ExitsOn x ce .exit := by
  obtain ⟨g2, c1, g3, h0, hl, hc⟩ := h.link_code he hd
  rw [hc, if_neg (by omega)]
  exact ih hl (setCallDepth_depth h0 hd)

theorem spine_exit {x : Expr} {e : Expr} (hs : Spine (.nullProp x) e) {g g' : Env} {c : Code} (h : Gen g (.link e) c g')
    {d : Nat} (hd : g.callDepth = some (d + 1)) : ExitsOn x c .exit := by
  induction hs generalizing g g' c d with
  | here =>
    obtain ⟨ce, he, hr⟩ := nullProp_exits_on_null h
    exact ⟨_, _, _, he, fun w f ups m m1 h1 hv room => (hr _ _ _ _ _ _ (Res.quiet_done _)).2 (.null h1 hv room)⟩
  | field hs ih => cases h with | field h => exact (spine_inner hd hs.isLink h ih).seq _
  | index hs ih => cases h with | index h => exact (spine_inner hd hs.isLink h ih).seq _
  | call hs ih => cases h with | call h => exact (spine_inner hd hs.isLink h ih).seq _
  | nullProp hs ih => cases h with | nullProp h => exact (spine_inner hd hs.isLink h ih).seq _
  | errProp hs ih => cases h with | errProp _ _ h => exact (spine_inner hd hs.isLink h ih).seq _

/-- **C20.**  In a chain, a null before a `?` ends the whole chain: everything that follows in it, with its
arguments and indexes, is skipped, and the value of the chain is null.  The hypothesis `g.callDepth = some 0` says
that the expression is not itself inside another chain. -/
theorem null_skips_rest_of_chain {x e : Expr} (hs : Spine (.nullProp x) e) {g g' : Env} {c : Code}
    (h : Gen g (.expr e) c g') (hd : g.callDepth = some 0) :
    ∃ g0 cx g1, Gen g0 (.expr x) cx g1 ∧ ∀ w f ups m m1, Runs w f ups cx m (.done .normal) m1 → m1.Top .null →
      m1.ptr + 1 < maxStack → Runs w f ups c m (.done .normal) (m1.wipe 2) ∧ (m1.wipe 2).Top .null := by
  obtain ⟨g2, c1, g3, h0, hl, hc⟩ := h.link_code hs.isLink hd
  rw [if_pos rfl] at hc
  obtain ⟨g0, cx, g1, hx, hr⟩ := spine_exit hs hl (setCallDepth_depth h0 hd)
  refine ⟨g0, cx, g1, hx, fun w f ups m m1 h1 hv room => ⟨?_, VM.top_wipe hv 2⟩⟩
  rw [hc]
  exact runs_chain.2 (.inr ⟨rfl, hr w f ups m m1 h1 hv room⟩)

/-- A chain that is not left early is its links one after the other: `e.f`, `e[i]`, `e(…)`. -/
theorem chain_plain {e : Expr} (he : e.isLink = true) {g g' : Env} {c : Code} (h : Gen g (.expr e) c g')
    (hd : g.callDepth = some 0) : ∃ g1 cl g2, Gen g1 (.link e) cl g2 ∧ ∀ w f ups m r m',
      Runs w f ups c m r m' ↔
        (Runs w f ups cl m r m' ∧ r ≠ .done .exit) ∨ (r = .done .normal ∧ Runs w f ups cl m (.done .exit) m') := by
  obtain ⟨g2, c1, g3, h0, hl, hc⟩ := h.link_code he hd
  rw [if_pos rfl] at hc
  subst hc
  exact ⟨_, _, _, hl, fun w f ups m r m' => runs_chain⟩

/-- `null?.f` has code, and its value is null. -/
example : ∃ c g', Gen [{ kind := .script }] (.expr (.field (.nullProp .null) "f")) c g' :=
  ⟨_, _, .chain rfl rfl rfl (.field (.chain rfl rfl rfl (.nullProp .null) rfl rfl)) rfl rfl⟩

example {g' : Env} {c : Code} (h : Gen [{ kind := .script }] (.expr (.field (.nullProp .null) "f")) c g')
    (w : World) (f : Frame) (ups : Option (List Nat)) (m : VM) (room : m.ptr + 2 < maxStack) :
    ∃ m', Runs w f ups c m (.done .normal) m' ∧ m'.Top .null ∧ m'.ptr = m.ptr + 1 := by
  obtain ⟨g0, cx, g1, hx, hr⟩ := null_skips_rest_of_chain (.field .here) h rfl
  cases hx with
  | chain he => cases he
  | null =>
    have := hr w f ups m (m.pushed .null) ((runs_pushNull (Res.quiet_done _)).2 ⟨by omega, rfl, rfl⟩)
      (VM.top_pushed _ (by omega)) (show m.ptr + 1 + 1 < maxStack from room)
    exact ⟨_, this.1, this.2, rfl⟩

end Dice
