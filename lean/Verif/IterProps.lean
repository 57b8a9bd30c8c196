import Verif.ErrorProps

/-!
# C64: loops over iterators

The protocol: the loop calls `iter()` once and then `next()` again and again.  Each result says with `is_done`
whether the iteration is over and has the next element in `value`.
-/

namespace Dice

/-- The machine when the body starts: the result of `next()`, on top of the stack of `m`, is gone, and the cell
`j` of the loop variable holds `x`. -/
def VM.take (m : VM) (j : Nat) (x : Value) : VM := (m.drop.setAt j x).wipe 2

/-- The body `B` run for each of the values that `next()` gives, with the loop variable in cell `j`.  `N m v m1`:
calling `next()` in `m` gives `v` and leads to `m1`, with `v` on top of the stack.  A round ends by dropping the
value of the body and closing captured variables (`C`).  `m` is the machine between two rounds. -/
inductive EachSpec (w : World) (N : VM → Value → VM → Prop) (B C : VM → Res → VM → Prop) (j : Nat) :
    List Value → VM → Res → VM → Prop where
  /-- The iterator is done. -/
  | stop {m m1 : VM} {v : Value} (hn : N m v m1) (hd : Member w m1.heap v "is_done" (.bool true)) :
      EachSpec w N B C j [] m (.done .normal) (m1.wipe 1)
  /-- The body runs to its end. -/
  | next {m m1 m2 m3 m' : VM} {v x : Value} {xs : List Value} {r : Res} (hn : N m v m1)
      (hd : Member w m1.heap v "is_done" (.bool false)) (hx : Member w m1.heap v "value" x)
      (hb : B (m1.take j x) (.done .normal) m2) (hc : C m2.drop (.done .normal) m3)
      (hr : EachSpec w N B C j xs m3 r m') : EachSpec w N B C j (x :: xs) m r m'
  /-- The body leaves the loop with `break`. -/
  | brk {m m1 m' : VM} {v x : Value} {xs : List Value} (hn : N m v m1)
      (hd : Member w m1.heap v "is_done" (.bool false)) (hx : Member w m1.heap v "value" x)
      (hb : B (m1.take j x) (.done .brk) m') : EachSpec w N B C j (x :: xs) m (.done .normal) m'
  /-- The body fails, or leaves the function or the enclosing chain. -/
  | leave {m m1 m' : VM} {v x : Value} {xs : List Value} {r : Res} (hn : N m v m1)
      (hd : Member w m1.heap v "is_done" (.bool false)) (hx : Member w m1.heap v "value" x)
      (hb : B (m1.take j x) r m') (hr : r ≠ .done .normal ∧ r ≠ .done .brk) : EachSpec w N B C j (x :: xs) m r m'

/-- Calling the function on top of the stack gives `v` and leads to `m1`, where `v` is on top of the function. -/
def CallsTop (w : World) (m : VM) (v : Value) (m1 : VM) : Prop :=
  ∃ fn n, m.Top fn ∧ callFn w n 0 (m.pushed fn) = (.ok (), m1) ∧ m1.Top v

section
variable {w : World} {f : Frame} {ups : Option (List Nat)} {m m' : VM} {r : Res}

theorem runs_once {c : Code} {m1 : VM} (h : Runs w f ups c m (.done .normal) m1) (r : Res) (m' : VM) :
    Runs w f ups c m r m' ↔ r = .done .normal ∧ m' = m1 :=
  ⟨fun h' => h'.det h, fun ⟨e1, e2⟩ => e1 ▸ e2 ▸ h⟩

theorem runs_call {argc n : Nat} {m1 : VM} (h : callFn w n (UInt8.ofNat argc).toNat m = (.ok (), m1)) :
    Runs w f ups (.num .call argc) m (.done .normal) m1 := by
  rw [Code.num, runs_instr]
  exact ⟨n, .inr ⟨.normal, bind_eq (bind_eq (x := operand _ _) rfl (bind_eq h rfl)) rfl, rfl⟩⟩

theorem runs_fieldToLocal {slot : Nat} {key : String} {v x : Value} (h1 : f.stop ≤ maxStack) (h2 : f.cell slot < f.stop)
    (hv : m.Top v) (hx : Member w m.heap v key x) :
    Runs w f ups (.instr (.fieldToLocal key (UInt8.ofNat slot))) m r m' ↔
      r = .done .normal ∧ m' = (m.drop.setAt (f.cell slot) x).pushed x := by
  have room : (m.drop.setAt (f.cell slot) x).ptr < maxStack := by
    have := hv.pos
    have := hv.max
    show m.ptr - 1 < maxStack
    omega
  have hg : getField w key v m.drop = (.ok x, m.drop) := getField_member hx
  exact runs_det fun n => bind_eq (bind_eq (x := operand _ _) rfl (bind_eq (x := operand _ _) rfl
    (bind_eq (x := constant _ _) rfl (bind_eq (x := asSymbol _) rfl (bind_eq (pop_top hv) (bind_eq hg
      (bind_eq (frameSet_in h1 h2) (bind_eq (push_room room) rfl)))))))) rfl

theorem VM.take_eq {j : Nat} {x : Value} (hp : 0 < m.ptr) (hj : j + 1 < m.ptr) :
    (((m.wipe 1).drop.setAt j x).pushed x).drop = m.take j x := by
  rw [VM.drop_pushed]
  unfold VM.take VM.wipe VM.setAt VM.drop
  simp only [VM.mk.injEq, and_true]
  funext k
  unfold upd memClear
  dsimp only
  repeat' split
  all_goals first | rfl | omega

/-- What is needed for the rounds: room on the stack and a variable inside the frame. -/
structure RoomAt (f : Frame) (slot : Nat) (m : VM) : Prop where
  stop : f.stop ≤ maxStack
  cell : f.cell slot < f.stop
  above : f.stop < m.ptr
  room : m.ptr + 1 < maxStack

/-- The part of a round before the body, when the iterator is not done. -/
theorem each_more {slot : Nat} {v x : Value} {m1 : VM} {cs : List Code} (h : RoomAt f slot m) (hn : CallsTop w m v m1)
    (hp : m1.ptr = m.ptr + 1) (hd : Member w m1.heap v "is_done" (.bool false)) (hx : Member w m1.heap v "value" x) :
    Runs w f ups (.block (.num .dup 0 :: .num .call 0 :: .num .dup 0 :: .sym .loadField "is_done" :: .breakIf true ::
      .instr (.fieldToLocal "value" (UInt8.ofNat slot)) :: .op .pop :: cs)) m r m' ↔
      Runs w f ups (.block cs) (m1.take (f.cell slot) x) r m' := by
  obtain ⟨fn, n, ht, hc, hv⟩ := hn
  have h1 := h.above
  have h2 := h.room
  have h3 := h.cell
  have room : m1.ptr < maxStack := by omega
  have d1 : ∀ r m', Runs w f ups (.num .dup 0) m r m' ↔ r = .done .normal ∧ m' = m.pushed fn :=
    runs_once ((runs_dup0 (Res.quiet_done _)).2 ⟨by omega, fn, ht, rfl, rfl⟩)
  have d2 : ∀ r m', Runs w f ups (.num .dup 0) m1 r m' ↔ r = .done .normal ∧ m' = m1.pushed v :=
    runs_once ((runs_dup0 (Res.quiet_done _)).2 ⟨room, v, hv, rfl, rfl⟩)
  have l1 : ∀ r m', Runs w f ups (.sym .loadField "is_done") (m1.pushed v) r m' ↔
      r = .done .normal ∧ m' = m1.pushed (.bool false) := fun r m' => by
    rw [runs_loadField (VM.top_pushed v room) (x := .bool false) hd, VM.retop_pushed]
  have b1 : ∀ r m', Runs w f ups (.breakIf true) (m1.pushed (.bool false)) r m' ↔ r = .done .normal ∧ m' = m1.wipe 1 :=
    runs_once (by
      rw [runs_breakIf_quiet (Res.quiet_done _)]
      exact ⟨_, VM.top_pushed _ room, (VM.drop_pushed _ _).symm, .inl ⟨false, rfl, rfl⟩⟩)
  have hv' : (m1.wipe 1).Top v := VM.top_wipe hv 1
  have p1 : ∀ r m', Runs w f ups (.op .pop) (((m1.wipe 1).drop.setAt (f.cell slot) x).pushed x) r m' ↔
      r = .done .normal ∧ m' = m1.take (f.cell slot) x := runs_once (by
    rw [runs_pop (Res.quiet_done _)]
    refine ⟨⟨x, VM.top_pushed x ?_⟩, rfl, (VM.take_eq (by omega) (by omega)).symm⟩
    show m1.ptr - 1 < maxStack
    omega)
  rw [runs_known d1, runs_known (runs_once (runs_call (argc := 0) hc)), runs_known d2, runs_known l1, runs_known b1,
    runs_known (fun r m' => runs_fieldToLocal h.stop h.cell hv' hx), runs_known p1]

/-- A round when the iterator is done. -/
theorem each_done {slot : Nat} {v : Value} {m1 : VM} {cs : List Code} (h : RoomAt f slot m) (hn : CallsTop w m v m1)
    (hp : m1.ptr = m.ptr + 1) (hd : Member w m1.heap v "is_done" (.bool true)) :
    Runs w f ups (.block (.num .dup 0 :: .num .call 0 :: .num .dup 0 :: .sym .loadField "is_done" :: .breakIf true :: cs)) m r m' ↔
      r = .done .brk ∧ m' = m1.wipe 1 := by
  obtain ⟨fn, n, ht, hc, hv⟩ := hn
  have h1 := h.above
  have h2 := h.room
  have room : m1.ptr < maxStack := by omega
  have d1 : ∀ r m', Runs w f ups (.num .dup 0) m r m' ↔ r = .done .normal ∧ m' = m.pushed fn :=
    runs_once ((runs_dup0 (Res.quiet_done _)).2 ⟨by omega, fn, ht, rfl, rfl⟩)
  have d2 : ∀ r m', Runs w f ups (.num .dup 0) m1 r m' ↔ r = .done .normal ∧ m' = m1.pushed v :=
    runs_once ((runs_dup0 (Res.quiet_done _)).2 ⟨room, v, hv, rfl, rfl⟩)
  have l1 : ∀ r m', Runs w f ups (.sym .loadField "is_done") (m1.pushed v) r m' ↔
      r = .done .normal ∧ m' = m1.pushed (.bool true) := fun r m' => by
    rw [runs_loadField (VM.top_pushed v room) (x := .bool true) hd, VM.retop_pushed]
  have b1 : Runs w f ups (.breakIf true) (m1.pushed (.bool true)) (.done .brk) (m1.wipe 1) := by
    rw [runs_breakIf_quiet (Res.quiet_done _)]
    exact ⟨_, VM.top_pushed _ room, (VM.drop_pushed _ _).symm, .inl ⟨true, rfl, rfl⟩⟩
  rw [runs_known d1, runs_known (runs_once (runs_call (argc := 0) hc)), runs_known d2, runs_known l1, runs_block]
  constructor
  · rintro (⟨h, -⟩ | ⟨m2, h, -⟩)
    · exact h.det b1
    · cases (h.det b1).1
  · rintro ⟨rfl, rfl⟩
    exact .inl ⟨b1, by simp⟩

theorem CallsTop.det {v v' : Value} {m1 m2 : VM} (h : CallsTop w m v m1) (h' : CallsTop w m v' m2) : v = v' ∧ m1 = m2 := by
  obtain ⟨fn, n, ht, hc, hv⟩ := h
  obtain ⟨fn', n', ht', hc', hv'⟩ := h'
  cases ht.unique ht'
  have h1 : Runs w ⟨0, 0⟩ none (.num .call 0) (m.pushed fn) (.done .normal) m1 := runs_call hc
  obtain ⟨-, rfl⟩ := h1.det (runs_call (argc := 0) hc')
  exact ⟨hv.unique hv', rfl⟩

/-- An iterator and a body `B` that leaves it alone.  `I xs m`: between rounds, in `m`, the iterator on top of the
stack is about to give the values `xs` and then to be done.  The body leaves one value and never says `continue`;
`C` ends a round. -/
structure KeepsIter (w : World) (B C : VM → Res → VM → Prop) (j : Nat) (I : List Value → VM → Prop) : Prop where
  done : ∀ {m}, I [] m → ∃ v m1, CallsTop w m v m1 ∧ m1.ptr = m.ptr + 1 ∧ Member w m1.heap v "is_done" (.bool true)
  more : ∀ {x xs m}, I (x :: xs) m → ∃ v m1, CallsTop w m v m1 ∧ m1.ptr = m.ptr + 1 ∧
    Member w m1.heap v "is_done" (.bool false) ∧ Member w m1.heap v "value" x
  ptr : ∀ {x xs m v m1 m2}, I (x :: xs) m → CallsTop w m v m1 → B (m1.take j x) (.done .normal) m2 → m2.ptr = m.ptr + 1
  cont : ∀ {x xs m v m1 m2}, I (x :: xs) m → CallsTop w m v m1 → ¬ B (m1.take j x) (.done .cont) m2
  next : ∀ {x xs m v m1 m2 m3}, I (x :: xs) m → CallsTop w m v m1 → B (m1.take j x) (.done .normal) m2 →
    C m2.drop (.done .normal) m3 → I xs m3

/-- The rounds of a loop over an iterator. -/
theorem each_code {slot : Nat} {c : Code} {vars : List ScopeVar} {xs : List Value} {I : List Value → VM → Prop}
    (h : RoomAt f slot m) (hv : ∀ v ∈ vars, f.cell v.slot < f.stop)
    (hk : KeepsIter w (Runs w f ups c) (Runs w f ups (closeCode vars)) (f.cell slot) I) (hI : I xs m) :
    Runs w f ups (.loop (.block [.num .dup 0, .num .call 0, .num .dup 0, .sym .loadField "is_done", .breakIf true,
        .instr (.fieldToLocal "value" (UInt8.ofNat slot)), .op .pop, c, .op .pop, closeCode vars])) m r m' ↔
      EachSpec w (CallsTop w) (Runs w f ups c) (Runs w f ups (closeCode vars)) (f.cell slot) xs m r m' := by
  rw [runs_loop]
  induction xs generalizing m with
  | nil =>
    obtain ⟨v, m1, hn, hp, hd⟩ := hk.done hI
    rw [rounds_iff]
    simp only [each_done h hn hp hd]
    constructor
    · rintro (⟨s, m2, hs, ⟨hx, -⟩, -⟩ | ⟨rfl, -, rfl⟩ | ⟨hr, rfl, -⟩)
      · rcases hs with rfl | rfl <;> cases hx
      · exact .stop hn hd
      · exact absurd rfl hr.2.2
    · intro he
      cases he with
      | stop hn' hd' =>
        obtain ⟨rfl, rfl⟩ := hn.det hn'
        exact .inr (.inl ⟨rfl, by simp⟩)
  | cons x xs ih =>
    obtain ⟨v, m1, hn, hp, hd, hx⟩ := hk.more hI
    have h1 := h.above
    have h2 := h.room
    -- what follows the body
    have after : ∀ {m2 : VM}, Runs w f ups c (m1.take (f.cell slot) x) (.done .normal) m2 →
        ∃ m3, (∀ r m', Runs w f ups (.block [.op .pop, closeCode vars]) m2 r m' ↔ r = .done .normal ∧ m' = m3) ∧
          (∀ r m', Runs w f ups (closeCode vars) m2.drop r m' ↔ r = .done .normal ∧ m' = m3) ∧
          RoomAt f slot m3 ∧ I xs m3 := by
      intro m2 hb
      have hp2 : m2.ptr = m.ptr + 1 := hk.ptr hI hn hb
      obtain ⟨m3, hc, hp3, -⟩ := closeCode_runs (w := w) (ups := ups) vars h.stop hv m2.drop
      have hp3 : m3.ptr = m.ptr := by
        rw [hp3]
        show m2.ptr - 1 = _
        omega
      have pop1 : ∀ r m', Runs w f ups (.op .pop) m2 r m' ↔ r = .done .normal ∧ m' = m2.drop :=
        runs_once ((runs_pop (Res.quiet_done _)).2 ⟨⟨_, by omega, by omega, rfl⟩, rfl, rfl⟩)
      refine ⟨m3, fun r m' => ?_, hc, ⟨h.stop, h.cell, by omega, by omega⟩, hk.next hI hn hb ((hc _ _).2 ⟨rfl, rfl⟩)⟩
      rw [runs_known pop1, runs_block1]
      exact hc r m'
    rw [rounds_iff]
    simp only [each_more h hn hp hd hx]
    constructor
    · rintro (⟨s, m2, hs, hx', hr⟩ | ⟨rfl, hx'⟩ | ⟨hr, hx'⟩)
      · rcases runs_block.1 hx' with ⟨hx', hne⟩ | ⟨m3, hb, hx'⟩
        · rcases hs with rfl | rfl
          · exact absurd rfl hne
          · exact absurd hx' (hk.cont hI hn)
        · obtain ⟨m4, e1, e2, e3, e4⟩ := after hb
          obtain ⟨-, rfl⟩ := (e1 _ _).1 hx'
          exact .next hn hd hx hb ((e2 _ _).2 ⟨rfl, rfl⟩) ((ih e3 e4).1 hr)
      · rcases runs_block.1 hx' with ⟨hx', hne⟩ | ⟨m3, hb, hx'⟩
        · exact .brk hn hd hx hx'
        · obtain ⟨m4, e1, -⟩ := after hb
          cases ((e1 _ _).1 hx').1
      · rcases runs_block.1 hx' with ⟨hx', hne⟩ | ⟨m3, hb, hx'⟩
        · exact .leave hn hd hx hx' ⟨hr.1, hr.2.2⟩
        · obtain ⟨m4, e1, -⟩ := after hb
          exact absurd ((e1 _ _).1 hx').1 hr.1
    · intro he
      cases he with
      | next hn' hd' hx' hb hc hr =>
        obtain ⟨rfl, rfl⟩ := hn.det hn'
        obtain ⟨m4, e1, e2, e3, e4⟩ := after hb
        obtain ⟨-, rfl⟩ := (e2 _ _).1 hc
        exact .inl ⟨.normal, _, .inl rfl, runs_block.2 (.inr ⟨_, hb, (e1 _ _).2 ⟨rfl, rfl⟩⟩), (ih e3 e4).2 hr⟩
      | brk hn' hd' hx' hb =>
        obtain ⟨rfl, rfl⟩ := hn.det hn'
        exact .inr (.inl ⟨rfl, runs_block.2 (.inl ⟨hb, by simp⟩)⟩)
      | leave hn' hd' hx' hb hr =>
        obtain ⟨rfl, rfl⟩ := hn.det hn'
        refine .inr (.inr ⟨⟨hr.1, ?_, hr.2⟩, runs_block.2 (.inl ⟨hb, hr.1⟩)⟩)
        intro he
        subst he
        exact hk.cont hI hn hb

end

end Dice
