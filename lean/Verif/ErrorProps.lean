import Verif.RangeProps
import Verif.BalanceGen
import Verif.ObjectProps

/-!
# Error propagation
-/

namespace Dice

/-- The machine with `n` values below the top one taken out. -/
def VM.keepTop (m : VM) (n : Nat) : VM :=
  { m with mem := upd (memClear m.mem (m.ptr - n) m.ptr) (m.ptr - 1 - n) (m.mem (m.ptr - 1)), ptr := m.ptr - n }

/-- `e!!` with the operand `A` and the return `ret` from the function with the value on top; `n` values are pending
below the operand. -/
inductive ErrPropSpec (w : World) (A ret : VM → Res → VM → Prop) (n : Nat) : VM → Res → VM → Prop where
  /-- The operand gives no value. -/
  | left {m m' : VM} {r : Res} (h : A m r m') (hr : r ≠ .done .normal) : ErrPropSpec w A ret n m r m'
  /-- The member `is_ok` of the value is not a boolean. -/
  | bad {m m1 : VM} {v x : Value} (h : A m (.done .normal) m1) (hv : m1.Top v) (room : m1.ptr < maxStack)
      (ht : Member w m1.heap v "is_ok" x) (hb : ∀ b, x ≠ .bool b) :
      ErrPropSpec w A ret n m (.err .invalidBool) (m1.wipe 1)
  /-- Success: the value is replaced by its member `result`. -/
  | success {m m1 : VM} {v x : Value} (h : A m (.done .normal) m1) (hv : m1.Top v) (room : m1.ptr < maxStack)
      (ht : Member w m1.heap v "is_ok" (.bool true)) (hx : Member w m1.heap v "result" x) :
      ErrPropSpec w A ret n m (.done .normal) ((m1.wipe 1).retop x)
  /-- Failure: the pending values are dropped and the function returns with the value. -/
  | failure {m m1 m' : VM} {v : Value} {r : Res} (h : A m (.done .normal) m1) (hv : m1.Top v) (room : m1.ptr < maxStack)
      (ht : Member w m1.heap v "is_ok" (.bool false)) (hn : n < m1.ptr) (hr : ret ((m1.wipe 1).keepTop n) r m') :
      ErrPropSpec w A ret n m r m'

theorem VM.top_keepTop {m : VM} {v : Value} {n : Nat} (h : m.Top v) (hn : n < m.ptr) : (m.keepTop n).Top v := by
  have h2 := h.max
  refine ⟨show 0 < m.ptr - n by omega, show m.ptr - n ≤ maxStack by omega, ?_⟩
  show upd _ (m.ptr - 1 - n) _ (m.ptr - n - 1) = v
  rw [show m.ptr - n - 1 = m.ptr - 1 - n by omega, upd_same]
  exact h.top

section
variable {w : World} {f : Frame} {ups : Option (List Nat)} {m m' : VM} {r : Res}

theorem keepTop_zero (h : 0 < m.ptr) : m.keepTop 0 = m := by
  cases m with
  | mk mem ptr heap cells openUps globals modules =>
    unfold VM.keepTop
    simp only [VM.mk.injEq, and_true, Nat.sub_zero]
    funext j
    unfold upd memClear
    by_cases h1 : j = ptr - 1
    · rw [if_pos h1, h1]
    · rw [if_neg h1, if_neg (by omega)]

/-- Swapping and popping once. -/
theorem keepTop_succ {n : Nat} (h : n + 1 < m.ptr) : (m.keepTop 1).keepTop n = m.keepTop (n + 1) := by
  unfold VM.keepTop
  simp only [VM.mk.injEq, and_true]
  refine ⟨?_, by omega⟩
  funext j
  unfold upd memClear
  dsimp only
  by_cases h1 : j = m.ptr - 1 - 1 - n
  · rw [if_pos h1, if_pos rfl, if_pos (by omega)]
  · rw [if_neg h1]
    rw [if_neg (show ¬ j = m.ptr - 1 - (n + 1) by omega)]
    by_cases h2 : m.ptr - 1 - n ≤ j ∧ j < m.ptr - 1
    · rw [if_pos h2, if_pos (by omega)]
    · rw [if_neg h2, if_neg (by omega)]
      by_cases h3 : m.ptr - 1 ≤ j ∧ j < m.ptr
      · rw [if_pos h3, if_pos (by omega)]
      · rw [if_neg h3, if_neg (by omega)]

theorem runs_swapPop {cs : Code} (hq : r.Quiet) : Runs w f ups (.seq (.op .swap) (.seq (.op .pop) cs)) m r m' ↔
    2 ≤ m.ptr ∧ m.ptr ≤ maxStack ∧ Runs w f ups cs (m.keepTop 1) r m' := by
  by_cases h : 2 ≤ m.ptr ∧ m.ptr ≤ maxStack
  · have hs : ∀ r m', Runs w f ups (.op .swap) m r m' ↔ r = .done .normal ∧ m' = { m with
        mem := upd (upd m.mem (m.ptr - 2) (m.mem (m.ptr - 1))) (m.ptr - 1) (m.mem (m.ptr - 2)) } := fun r m' => by
      rw [Code.op]
      exact runs_det fun n => bind_eq (bind_eq (show swap m = _ by unfold swap; rw [if_pos h]) rfl) rfl
    have hd : VM.drop { m with mem := upd (upd m.mem (m.ptr - 2) (m.mem (m.ptr - 1))) (m.ptr - 1) (m.mem (m.ptr - 2)) } =
        m.keepTop 1 := by
      unfold VM.drop VM.keepTop
      simp only [VM.mk.injEq, and_true]
      funext j
      unfold upd memClear
      by_cases h1 : j = m.ptr - 1
      · rw [if_pos h1, if_neg (by omega), if_pos (by omega)]
      · rw [if_neg h1]
        simp only [if_neg h1]
        by_cases h2 : j = m.ptr - 2
        · rw [if_pos h2, if_pos (by omega)]
        · rw [if_neg h2, if_neg (by omega), if_neg (by omega)]
    rw [runs_seq]
    constructor
    · rintro (⟨h', hr⟩ | ⟨m1, h1, h'⟩)
      · exact absurd ((hs _ _).1 h').1 hr
      · obtain ⟨-, rfl⟩ := (hs _ _).1 h1
        rcases runs_seq.1 h' with ⟨h', hr⟩ | ⟨m2, h2, h'⟩
        · obtain ⟨-, rfl, -⟩ := (runs_pop hq).1 h'
          exact absurd rfl hr
        · obtain ⟨-, -, rfl⟩ := (runs_pop (Res.quiet_done _)).1 h2
          rw [hd] at h'
          exact ⟨h.1, h.2, h'⟩
    · rintro ⟨-, -, h'⟩
      refine then_right ((hs _ _).2 ⟨rfl, rfl⟩) (runs_seq.2 (then_right ((runs_pop (Res.quiet_done _)).2
        ⟨⟨_, ⟨?_, ?_, rfl⟩⟩, rfl, rfl⟩) ?_))
      · show 0 < m.ptr
        omega
      · exact h.2
      · rw [hd]
        exact h'
  · constructor
    · intro h'
      have hs : ∀ r m', Runs w f ups (.op .swap) m r m' ↔ r = .panic "index out of bounds" ∧ m' = m := fun r m' => by
        rw [Code.op]
        exact runs_det_panic fun n => bind_panic (bind_panic (show swap m = _ by unfold swap; rw [if_neg h]))
      rcases runs_seq.1 h' with ⟨h', hr⟩ | ⟨m1, h1, h'⟩
      · exact absurd ((hs _ _).1 h').1 (hq _)
      · cases ((hs _ _).1 h1).1
    · exact fun h' => absurd ⟨h'.1, h'.2.1⟩ h

/-- Dropping the pending values, then more. -/
theorem runs_dropCode {n : Nat} {c : Code} (hq : r.Quiet) (hm : 0 < m.ptr ∧ m.ptr ≤ maxStack) :
    Runs w f ups (.seq (dropCode n) c) m r m' ↔ n < m.ptr ∧ Runs w f ups c (m.keepTop n) r m' := by
  induction n generalizing m with
  | zero =>
    rw [dropCode, runs_seq, keepTop_zero hm.1]
    constructor
    · rintro (⟨h, hr⟩ | ⟨m1, h, h'⟩)
      · exact absurd (runs_nop.1 h).1 hr
      · obtain ⟨-, rfl⟩ := runs_nop.1 h
        exact ⟨hm.1, h'⟩
    · exact fun h => then_right (runs_nop.2 ⟨rfl, rfl⟩) h.2
  | succ n ih =>
    have e : Runs w f ups (.seq (dropCode (n + 1)) c) m r m' ↔
        Runs w f ups (.seq (.op .swap) (.seq (.op .pop) (.seq (dropCode n) c))) m r m' := by
      rw [dropCode, runs_seq, runs_seq]
      refine (then_congr (fun _ _ _ => runs_seq) (fun _ _ _ => Iff.rfl)).trans (then_assoc.trans ?_)
      refine then_congr (fun _ _ _ => Iff.rfl) (fun _ _ _ => ?_)
      rw [runs_seq]
      refine (then_congr (fun _ _ _ => runs_seq) (fun _ _ _ => Iff.rfl)).trans (then_assoc.trans ?_)
      exact then_congr (fun _ _ _ => Iff.rfl) (fun _ _ _ => runs_seq.symm)
    rw [e, runs_swapPop hq]
    constructor
    · rintro ⟨h1, h2, h⟩
      obtain ⟨h3, h⟩ := (ih ⟨show 0 < m.ptr - 1 by omega, show m.ptr - 1 ≤ maxStack by omega⟩).1 h
      change n < m.ptr - 1 at h3
      rw [keepTop_succ (by omega)] at h
      exact ⟨by omega, h⟩
    · rintro ⟨h1, h⟩
      refine ⟨by omega, hm.2, (ih ⟨show 0 < m.ptr - 1 by omega, show m.ptr - 1 ≤ maxStack by omega⟩).2
        ⟨show n < m.ptr - 1 by omega, ?_⟩⟩
      rw [keepTop_succ (by omega)]
      exact h

theorem runs_skipIf_quiet {b : Bool} {c : Code} (hq : r.Quiet) : Runs w f ups (.skipIf b c) m r m' ↔
    ∃ v, m.Top v ∧ ((∃ x, v = .bool x ∧ if x = b then r = .done .normal ∧ m' = m.drop else Runs w f ups c m.drop r m') ∨
      ((∀ x, v ≠ .bool x) ∧ r = .err .invalidBool ∧ m' = m.drop)) := by
  rcases top_or m with ⟨v, h⟩ | h
  · by_cases hb : ∃ x, v = .bool x
    · obtain ⟨x, rfl⟩ := hb
      rw [runs_skipIf_top h]
      constructor
      · exact fun h' => ⟨_, h, .inl ⟨x, rfl, h'⟩⟩
      · rintro ⟨v', hv', ⟨x', rfl, h'⟩ | ⟨hn, -⟩⟩
        · cases h.unique hv'; exact h'
        · cases h.unique hv'; exact absurd rfl (hn x)
    · rw [runs_skipIf, popBool_bad h (fun b hv => hb ⟨b, hv⟩)]
      constructor
      · rintro (⟨h', rfl⟩ | ⟨x', m1, h', -⟩)
        · cases h'; exact ⟨_, h, .inr ⟨fun x hv => hb ⟨x, hv⟩, rfl, rfl⟩⟩
        · cases h'
      · rintro ⟨v', hv', ⟨x', rfl, -⟩ | ⟨hn, rfl, rfl⟩⟩
        · cases h.unique hv'; exact absurd ⟨x', rfl⟩ hb
        · exact .inl ⟨rfl, rfl⟩
  · rw [runs_skipIf, popBool_no h]
    constructor
    · rintro (⟨h', -⟩ | ⟨x', m1, h', -⟩)
      · cases h'; exact absurd rfl (hq _)
      · cases h'
    · rintro ⟨v', hv', -⟩
      have := hv'.pos
      have := hv'.max
      omega

theorem leaves_not_normal {c : Code} (hc : c.Leaves) (hr : Runs w f ups c m r m') : r ≠ .done .normal := by
  obtain ⟨n, h1, -⟩ := hr
  rintro rfl
  cases he : exec w f ups c n m with
  | mk o m1 =>
    rw [he] at h1
    cases o with
    | ok a =>
      obtain ⟨s, k⟩ := a
      cases exec_leaves hc he
      cases h1
    | _ => cases h1

end

theorem Member.unique {w : World} {h : Heap} {v x y : Value} {key : String} (h1 : Member w h v key x)
    (h2 : Member w h v key y) : x = y := by
  have e1 := getField_member (m := { heap := h }) h1
  have e2 := getField_member (m := { heap := h }) h2
  rw [e1] at e2
  cases e2
  rfl

/-- Reading a member of the value on top. -/
theorem runs_loadField {w : World} {f : Frame} {ups : Option (List Nat)} {m m' : VM} {r : Res} {key : String}
    {v x : Value} (hv : m.Top v) (hx : Member w m.heap v key x) :
    Runs w f ups (.sym .loadField key) m r m' ↔ r = .done .normal ∧ m' = m.retop x := by
  have hp : m.ptr = m.ptr - 1 + 1 := by have := hv.pos; omega
  have hb : m.ptr - 1 < maxStack := by have := hv.pos; have := hv.max; omega
  have hx' : Member w m.heap (m.mem (m.ptr - 1)) key x := by rw [hv.top]; exact hx
  exact runs_det fun n => bind_eq (loadField_member w _ _ f ups 0 hp hb rfl hx') rfl

/-- **C46.**  `e!!` -/
theorem errProp_returns_failure_partial {g g' : Env} {e : Expr} {c : Code} (h : Gen g (.link (.errProp e)) c g') :
    ∃ ce cr g1, Gen g (.expr e) ce g1 ∧ ReturnGen g1 cr g' ∧ ∀ w f ups m r m', Res.Quiet r →
      (Runs w f ups c m r m' ↔ ErrPropSpec w (Runs w f ups ce) (Runs w f ups cr) g1.temps m r m') := by
  cases h with
  | @errProp _ g1 _ _ k ce cr hk hf h1 hr =>
    refine ⟨ce, cr, g1, h1, hr, fun w f ups m r m' hq => ?_⟩
    have hl : (Code.seq (dropCode g1.temps) cr).Leaves := .right (dropCode_straight _) hr.leaves
    have test : ∀ {m1 : VM} {v x : Value} {cs : List Code}, m1.Top v → m1.ptr < maxStack → Member w m1.heap v "is_ok" x →
        (Runs w f ups (.block (.num .dup 0 :: .sym .loadField "is_ok" :: cs)) m1 r m' ↔
          Runs w f ups (.block cs) (m1.pushed x) r m') := by
      intro m1 v x cs hv room hx
      have h1 : ∀ r m', Runs w f ups (.num .dup 0) m1 r m' ↔ r = .done .normal ∧ m' = m1.pushed v := fun r m' => by
        rw [Code.num]
        exact runs_det fun n => bind_eq (bind_eq (x := operand _ _) rfl (bind_eq (peek_top hv) (bind_eq (push_room room) rfl))) rfl
      have h2 : ∀ r m', Runs w f ups (.sym .loadField "is_ok") (m1.pushed v) r m' ↔ r = .done .normal ∧ m' = m1.pushed x :=
        fun r m' => by rw [runs_loadField (VM.top_pushed v room) (x := x) hx, VM.retop_pushed]
      rw [runs_known h1, runs_known h2]
    rw [runs_block]
    constructor
    · rintro (⟨h, hr⟩ | ⟨m1, h1, h⟩)
      · exact .left h hr
      obtain ⟨room, v, hv⟩ : m1.ptr < maxStack ∧ ∃ v, m1.Top v := by
        rcases runs_block.1 h with ⟨h, hr⟩ | ⟨m2, h2, -⟩
        · obtain ⟨-, v, -, rfl, -⟩ := (runs_dup0 hq).1 h; exact absurd rfl hr
        · obtain ⟨room, v, hv, -⟩ := (runs_dup0 (Res.quiet_done _)).1 h2
          exact ⟨room, v, hv⟩
      obtain ⟨x, hx⟩ := member_total w m1.heap v (show "is_ok" ≠ "new" by decide)
      have h := (test hv room hx).1 h
      have top := VM.top_pushed (m := m1) x room
      have skip := fun r m' => @runs_skipIf_quiet w f ups (m1.pushed x) m' r true (.seq (dropCode g1.temps) cr)
      rcases runs_block.1 h with ⟨h, hr⟩ | ⟨m4, h4, h⟩
      · obtain ⟨x', hx', ⟨b, rfl, h⟩ | ⟨hb, rfl, rfl⟩⟩ := (skip _ _ hq).1 h
        · cases top.unique hx'
          cases b with
          | true => exact absurd h.1 hr
          | false =>
            rw [VM.drop_pushed] at h
            obtain ⟨hn, h⟩ := (runs_dropCode (m := m1.wipe 1) hq ⟨hv.pos, hv.max⟩).1 (by simpa using h)
            exact .failure h1 hv room hx hn h
        · cases top.unique hx'
          rw [VM.drop_pushed]
          exact .bad h1 hv room hx hb
      · obtain ⟨x', hx', ⟨b, rfl, h'⟩ | ⟨-, hx', -⟩⟩ := (skip _ _ (Res.quiet_done _)).1 h4
        · cases top.unique hx'
          cases b with
          | true =>
            obtain ⟨-, rfl⟩ := h'
            rw [VM.drop_pushed, runs_block1] at h
            obtain ⟨y, hy⟩ := member_total w m1.heap v (show "result" ≠ "new" by decide)
            obtain ⟨rfl, rfl⟩ := (runs_loadField (VM.top_wipe hv 1) (x := y) hy).1 h
            exact .success h1 hv room hx hy
          | false => exact absurd rfl (leaves_not_normal hl h')
        · cases hx'
    · intro h
      cases h with
      | left h hr => exact then_left h hr
      | bad h1 hv room ht hb =>
        refine then_right h1 ((test hv room ht).2 (runs_block.2 (then_left ((runs_skipIf_quiet hq).2
          ⟨_, VM.top_pushed _ room, .inr ⟨hb, rfl, ?_⟩⟩) (by simp))))
        rw [VM.drop_pushed]
      | success h1 hv room ht hx =>
        refine then_right h1 ((test hv room ht).2 (runs_block.2 (then_right ((runs_skipIf_quiet (Res.quiet_done _)).2
          ⟨_, VM.top_pushed _ room, .inl ⟨true, rfl, by simp; rfl⟩⟩) ?_)))
        rw [VM.drop_pushed]
        exact runs_block1.2 ((runs_loadField (VM.top_wipe hv 1) hx).2 ⟨rfl, rfl⟩)
      | failure h1 hv room ht hn hr =>
        rename_i m1 v
        have h : Runs w f ups (.seq (dropCode g1.temps) cr) (m1.pushed (.bool false)).drop r m' := by
          rw [VM.drop_pushed]
          exact (runs_dropCode (m := m1.wipe 1) hq ⟨hv.pos, hv.max⟩).2 ⟨hn, hr⟩
        exact then_right h1 ((test hv room ht).2 (runs_block.2 (then_left ((runs_skipIf_quiet hq).2
          ⟨_, VM.top_pushed _ room, .inl ⟨false, rfl, by simpa using h⟩⟩) (leaves_not_normal hl h))))

/-- The return of a function without a declared result type ends the function at once, with the stack as it is. -/
theorem plain_return_stops {g g' : Env} {cr : Code} (h : ReturnGen g cr g') {k : CompilerKind} (hk : g.kind = some k)
    (ht : k.returnType = none) {w : World} {f : Frame} {ups : Option (List Nat)} {m m' : VM} {r : Res} :
    Runs w f ups cr m r m' ↔ r = .done .stop ∧ m' = m := by
  cases h with
  | plain => exact runs_det fun n => rfl
  | typed hk' ht' => rw [hk] at hk'; cases hk'; rw [ht] at ht'; cases ht'

/-- **C46.**  In a function without a declared result type, a failing operand ends the function with that very value. -/
theorem errProp_failure_is_result {g g' : Env} {e : Expr} {c : Code} (h : Gen g (.link (.errProp e)) c g')
    {k : CompilerKind} (hk : g.kind = some k) (ht : k.returnType = none) :
    ∃ ce g1, Gen g (.expr e) ce g1 ∧ ∀ w f ups m m1 v, Runs w f ups ce m (.done .normal) m1 → m1.Top v →
      m1.ptr < maxStack → g.temps < m1.ptr → Member w m1.heap v "is_ok" (.bool false) →
      ∃ m', Runs w f ups c m (.done .stop) m' ∧ m'.Top v ∧ m'.ptr + g.temps = m1.ptr ∧
        ∀ i, i + 1 < m'.ptr → m'.mem i = m1.mem i := by
  obtain ⟨ce, cr, g1, h1, hr, hs⟩ := errProp_returns_failure_partial h
  rw [← h1.temps rfl]
  refine ⟨ce, g1, h1, fun w f ups m m1 v hm hv room hn ho => ⟨(m1.wipe 1).keepTop g1.temps, ?_, ?_, ?_, ?_⟩⟩
  · refine (hs _ _ _ _ _ _ (Res.quiet_done _)).2 (.failure hm hv room ho hn ?_)
    exact (plain_return_stops hr ((h1.kindEq).trans hk) ht).2 ⟨rfl, rfl⟩
  · exact VM.top_keepTop (VM.top_wipe hv 1) hn
  · show m1.ptr - g1.temps + g1.temps = m1.ptr
    omega
  · intro i hi
    have hi : i + 1 < m1.ptr - g1.temps := hi
    show upd _ (m1.ptr - 1 - g1.temps) _ i = _
    rw [upd_other (by omega)]
    show memClear _ _ _ _ = _
    unfold memClear
    rw [if_neg (by have : (m1.wipe 1).ptr = m1.ptr := rfl; omega)]
    show memClear _ _ _ _ = _
    unfold memClear
    rw [if_neg (by omega)]

/-- `null!!` in a function has code, and there is an object that says that it is a failure. -/
example : ∃ c g', Gen [{ kind := .function none }] (.link (.errProp .null)) c g' :=
  ⟨_, _, .errProp rfl ⟨_, .inl rfl⟩ .null (.plain rfl rfl)⟩

example (w : World) :
    Member w ((({} : Heap).newObject 0).2.writeField 0 "is_ok" (.bool false)) (.object 0) "is_ok" (.bool false) :=
  .field rfl

end Dice
