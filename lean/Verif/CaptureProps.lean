import Verif.ObjectProps

/-!
# C28, C29: captured variables
-/

namespace Dice

/-! ## C29 -/

/-- Every open cell is registered, and no two open cells are on the same slot. -/
structure OpenInv (cells : List Cell) (openUps : List Nat) : Prop where
  registered : ∀ (a s : Nat), cells[a]? = some (.open s) → a ∈ openUps
  unique : ∀ (a b s : Nat), cells[a]? = some (.open s) → cells[b]? = some (.open s) → a = b

theorem cellSlot_iff {cells : List Cell} {a s : Nat} : cellSlot cells a = some s ↔ cells[a]? = some (.open s) := by
  unfold cellSlot
  split
  · rename_i t h
    rw [h]
    constructor
    · intro e
      cases e
      rfl
    · intro e
      cases e
      rfl
  · rename_i h
    constructor
    · intro e
      exact nomatch e
    · intro e
      exact absurd e (h s)

theorem findOpen_some {cells : List Cell} {ups : List Nat} {i0 offset i a : Nat}
    (h : findOpen cells ups i0 offset = some (i, a)) :
    i0 ≤ i ∧ ups[i - i0]? = some a ∧ cells[a]? = some (.open offset) := by
  induction ups generalizing i0 with
  | nil => exact nomatch h
  | cons b rest ih =>
    unfold findOpen at h
    cases hr : findOpen cells rest (i0 + 1) offset with
    | some r =>
      rw [hr] at h
      dsimp only at h
      cases h
      obtain ⟨h1, h2, h3⟩ := ih hr
      refine ⟨by omega, ?_, h3⟩
      rw [show i - i0 = (i - (i0 + 1)) + 1 by omega, List.getElem?_cons_succ]
      exact h2
    | none =>
      rw [hr] at h
      dsimp only at h
      split at h
      · rename_i hc
        cases h
        rw [Nat.sub_self]
        exact ⟨Nat.le_refl _, rfl, cellSlot_iff.mp hc⟩
      · exact nomatch h

theorem findOpen_none {cells : List Cell} {ups : List Nat} {i0 offset : Nat}
    (h : findOpen cells ups i0 offset = none) : ∀ a ∈ ups, cells[a]? ≠ some (.open offset) := by
  induction ups generalizing i0 with
  | nil => exact fun _ h => nomatch h
  | cons b rest ih =>
    unfold findOpen at h
    cases hr : findOpen cells rest (i0 + 1) offset with
    | some r =>
      rw [hr] at h
      exact nomatch h
    | none =>
      rw [hr] at h
      dsimp only at h
      split at h
      · exact nomatch h
      · rename_i hc
        intro a ha
        rcases List.mem_cons.mp ha with rfl | ha
        · exact fun e => hc (cellSlot_iff.mpr e)
        · exact ih hr a ha

/-- The cell on a slot is found if there is one. -/
theorem findOpen_of_open {cells : List Cell} {ups : List Nat} {a s : Nat} (hi : OpenInv cells ups)
    (ha : cells[a]? = some (.open s)) : ∃ i, findOpen cells ups 0 s = some (i, a) ∧ ups[i]? = some a := by
  cases h : findOpen cells ups 0 s with
  | none => exact absurd ha (findOpen_none h a (hi.registered a s ha))
  | some r =>
    obtain ⟨i, b⟩ := r
    obtain ⟨-, h2, h3⟩ := findOpen_some h
    have := hi.unique a b s ha h3
    subst this
    exact ⟨i, rfl, h2⟩

/-- **C29**, the invariant of the machine. -/
def CellsInv (m : VM) : Prop := OpenInv m.cells m.openUps

theorem capture_inv (offset : Nat) {m : VM} (hi : CellsInv m) : CellsInv (captureLocal offset m).2 := by
  unfold captureLocal
  cases h : findOpen m.cells m.openUps 0 offset with
  | some r => exact hi
  | none =>
    have hnone : ∀ a : Nat, m.cells[a]? ≠ some (Cell.open offset) := fun a ha =>
      findOpen_none h a (hi.registered a offset ha) ha
    refine ⟨?_, ?_⟩
    · intro a s ha
      rcases getElem?_append_one.mp ha with h1 | ⟨rfl, -⟩
      · exact List.mem_append_left _ (hi.registered a s h1)
      · exact List.mem_append_right _ (List.mem_singleton.mpr rfl)
    · intro a b s ha hb
      rcases getElem?_append_one.mp ha with h1 | ⟨rfl, e1⟩ <;> rcases getElem?_append_one.mp hb with h2 | ⟨rfl, e2⟩
      · exact hi.unique a b s h1 h2
      · cases e2
        exact absurd h1 (hnone a)
      · cases e1
        exact absurd h2 (hnone b)
      · rfl

theorem closeCell_inv (offset : Nat) (v : Value) {m : VM} (hi : CellsInv m) : CellsInv (closeCell offset v m).2 := by
  unfold closeCell
  cases h : findOpen m.cells m.openUps 0 offset with
  | none => exact hi
  | some r =>
    obtain ⟨i, a⟩ := r
    obtain ⟨-, h2, h3⟩ := findOpen_some h
    have old : ∀ b s : Nat, (m.cells.set a (.closed v))[b]? = some (.open s) → b ≠ a ∧ m.cells[b]? = some (.open s) := by
      intro b s hb
      rw [List.getElem?_set] at hb
      split at hb
      · split at hb <;> exact nomatch hb
      · rename_i hne
        exact ⟨fun e => hne e.symm, hb⟩
    refine ⟨?_, ?_⟩
    · intro b s hb
      obtain ⟨hne, hb⟩ := old b s hb
      have hm := hi.registered b s hb
      obtain ⟨j, hj, hbj⟩ := List.mem_iff_getElem.mp hm
      rw [List.mem_eraseIdx_iff_getElem]
      refine ⟨j, hj, ?_, hbj⟩
      intro e
      subst e
      rw [Nat.sub_zero, List.getElem?_eq_some_iff.mpr ⟨hj, rfl⟩] at h2
      exact hne (hbj.symm.trans (Option.some.inj h2))
    · intro b c s hb hc
      exact hi.unique b c s (old b s hb).2 (old c s hc).2

theorem SameRest.cellsInv {a b : VM} (h : SameRest a b) (hi : CellsInv a) : CellsInv b := by
  unfold CellsInv
  rw [← h.cells, ← h.openUps]
  exact hi

theorem writeCell_inv (a : Nat) (v : Value) {m : VM} (hi : CellsInv m) : CellsInv (writeCell a v m).2 := by
  unfold writeCell
  split
  · exact (memSet_rest _ v m).cellsInv hi
  · rename_i u hu
    have old : ∀ b s : Nat, (m.cells.set a (.closed v))[b]? = some (.open s) → m.cells[b]? = some (.open s) := by
      intro b s hb
      rw [List.getElem?_set] at hb
      split at hb
      · split at hb <;> exact nomatch hb
      · exact hb
    exact ⟨fun b s hb => hi.registered b s (old b s hb), fun b c s hb hc => hi.unique b c s (old b s hb) (old c s hc)⟩
  · exact hi

theorem cellsInv_prims (w : World) : Prims w (fun a b => CellsInv a → CellsInv b) where
  refl _ := id
  trans _ _ _ h1 h2 h := h2 (h1 h)
  push v m := (push_rest v m).cellsInv
  pop m := (pop_rest m).cellsInv
  poke i v m := (poke_rest i v m).cellsInv
  popCount n m := (popCount_rest n m).cellsInv
  swap m := (swap_rest m).cellsInv
  reserve n m := (reserve_rest w n m).cellsInv
  release f m := (release_rest w f m).cellsInv
  frameSet f i v m := (frameSet_rest f i v m).cellsInv
  memSet i v m := (memSet_rest i v m).cellsInv
  newArray _ _ h := h
  newObject _ _ h := h
  newClass _ _ _ _ _ h := h
  setField _ _ _ _ _ _ h := h
  setMethod _ _ _ _ h := h
  setArray _ _ _ _ _ h := h
  native _ _ _ h := h
  capture i _ h := capture_inv i h
  close f i m := bind_state (Q := fun a b => CellsInv a → CellsInv b) (fun _ _ _ h1 h2 h => h2 (h1 h))
    (fun m h => by rw [frameGet_state]; exact h)
    (fun v m => bind_state (Q := fun a b => CellsInv a → CellsInv b) (fun _ _ _ h1 h2 h => h2 (h1 h))
      (fun m => (frameSet_rest f i .null m).cellsInv) (fun _ _ h => closeCell_inv _ v h) m) m
  writeCell a v _ h := writeCell_inv a v h
  global _ _ _ _ h := h
  module _ _ _ _ h := h

/-- **C29**: in every history of the machine, starting with no captures, at most one open capture record
exists for any stack slot. -/
theorem one_open_capture (w : World) (history : List (Nat × Bytecode)) {m : VM} (hi : CellsInv m)
    {a b s : Nat} (ha : (runAll w history m).cells[a]? = some (.open s))
    (hb : (runAll w history m).cells[b]? = some (.open s)) : a = b := by
  have key : CellsInv (runAll w history m) := by
    clear ha hb
    induction history generalizing m with
    | nil => exact hi
    | cons x rest ih => exact ih (run_pres (cellsInv_prims w) x.1 x.2 m hi)
  exact key.unique a b s ha hb

/-- **C29**: hence capturing a slot that has an open record gives that record again, at any moment of any
execution (`CellsInv` is kept by every computation of the machine, `cellsInv_prims`). -/
theorem capture_shares {m : VM} (hi : CellsInv m) {a s : Nat} (ha : m.cells[a]? = some (.open s)) :
    captureLocal s m = (.ok a, m) := by
  obtain ⟨i, h1, -⟩ := findOpen_of_open hi ha
  unfold captureLocal
  rw [h1]

example : CellsInv {} := ⟨fun _ _ h => by simp at h, fun _ _ _ h => by simp at h⟩

example : captureLocal 3 (captureLocal 3 {}).2 = (.ok 0, (captureLocal 3 {}).2) := rfl

/-! ## C28 -/

/-- What can happen around one local variable of a frame: `i` is an index into the closures that captured it
so far. -/
inductive CapOp where
  /-- The declaring function reads or writes it. -/
  | readLocal
  | writeLocal (v : Value)
  /-- A further closure captures it. -/
  | capture
  /-- The `i`-th closure reads or writes it. -/
  | readVia (i : Nat)
  | writeVia (i : Nat) (v : Value)
  /-- Its scope ends. -/
  | close
  /-- Any other write to the stack; after the scope has ended the slot itself may be reused. -/
  | stack (j : Nat) (v : Value)
  /-- Other variables: capture, scope end, and writes through their cells. -/
  | captureOther (s : Nat)
  | closeOther (f : Frame) (j : Nat)
  | writeOther (a : Nat) (v : Value)

/-- What the machine does; the list are the cells of the closures so far.  The result is what is read. -/
def capRun (f : Frame) (slot : Nat) (cs : List Nat) : CapOp → V (Option Value × List Nat)
  | .readLocal => do
    let v ← frameGet f slot
    pure (some v, cs)
  | .writeLocal v => do
    frameSet f slot v
    pure (none, cs)
  | .capture => do
    let a ← captureLocal (f.start + slot)
    pure (none, cs ++ [a])
  | .readVia i => do
    let a ← upvalueAt (some cs) i
    let v ← readCell a
    pure (some v, cs)
  | .writeVia i v => do
    let a ← upvalueAt (some cs) i
    writeCell a v
    pure (none, cs)
  | .close => do
    closeUpvalue f slot
    pure (none, cs)
  | .stack j v => do
    memSet j v
    pure (none, cs)
  | .captureOther s => do
    let _ ← captureLocal s
    pure (none, cs)
  | .closeOther g j => do
    closeUpvalue g j
    pure (none, cs)
  | .writeOther a v => do
    writeCell a v
    pure (none, cs)

/-- The variable as one shared cell: its value, whether its scope is still running, and how many closures
captured it. -/
structure SharedVar where
  val : Value
  live : Bool
  closures : Nat

/-- What the operations mean for the shared cell.  `none` if the operation is not about this variable any
more or does not exist: the declaring function uses it only while its scope runs, the others do not use its
slot meanwhile. -/
def SharedVar.step (offset : Nat) (s : SharedVar) : CapOp → Option (Option Value × SharedVar)
  | .readLocal => if s.live then some (some s.val, s) else none
  | .writeLocal v => if s.live then some (none, { s with val := v }) else none
  | .capture => if s.live then some (none, { s with closures := s.closures + 1 }) else none
  | .readVia i => if i < s.closures then some (some s.val, s) else none
  | .writeVia i v => if i < s.closures then some (none, { s with val := v }) else none
  | .close => if s.live then some (none, { s with live := false }) else none
  | .stack j _ => if j < maxStack ∧ (s.live = true → j ≠ offset) then some (none, s) else none
  | .captureOther t => if s.live = true → t ≠ offset then some (none, s) else none
  | .closeOther g j =>
    if g.stop ≤ maxStack ∧ g.start + j < g.stop ∧ (s.live = true → g.start + j ≠ offset) then some (none, s) else none
  | .writeOther _ _ => some (none, s)

/-- How the machine represents the shared cell. -/
structure VarRep (offset : Nat) (m : VM) (cs : List Nat) (s : SharedVar) : Prop where
  inv : CellsInv m
  count : cs.length = s.closures
  same : ∀ a ∈ cs, ∀ b ∈ cs, a = b
  live : s.live = true → m.mem offset = s.val ∧ ∀ a : Nat, m.cells[a]? = some (.open offset) ↔ a ∈ cs
  dead : s.live = false → ∀ a ∈ cs, m.cells[a]? = some (.closed s.val)

/-- The operations on other cells do not touch the cells of this variable. -/
def CapOp.Apart (cs : List Nat) (m : VM) : CapOp → Prop
  | .writeOther a _ => a ∉ cs ∧ a < m.cells.length ∧ ∀ s, m.cells[a]? = some (.open s) → s < maxStack
  | _ => True

theorem memSet_eval {i : Nat} (v : Value) {m : VM} (h : i < maxStack) :
    memSet i v m = (.ok (), { m with mem := upd m.mem i v }) := by
  unfold memSet
  rw [if_pos h]

theorem frameSet_eval {f : Frame} {i : Nat} (v : Value) {m : VM} (h1 : f.stop ≤ maxStack) (h2 : f.start + i < f.stop) :
    frameSet f i v m = (.ok (), { m with mem := upd m.mem (f.start + i) v }) := by
  unfold frameSet
  rw [if_pos ⟨h1, h2⟩]

theorem frameGet_eval {f : Frame} {i : Nat} {m : VM} (h1 : f.stop ≤ maxStack) (h2 : f.start + i < f.stop) :
    frameGet f i m = (.ok (m.mem (f.start + i)), m) := by
  unfold frameGet
  rw [if_pos ⟨h1, h2⟩]

/-- Closing the slot `offset` with the value `v`: exactly the cells open on it become closed. -/
def Closes (offset : Nat) (v : Value) (before after : List Cell) : Prop :=
  ∀ a : Nat, (before[a]? = some (.open offset) → after[a]? = some (.closed v)) ∧
    (before[a]? ≠ some (.open offset) → after[a]? = before[a]?)

theorem closeCell_eval {m : VM} (hi : CellsInv m) (offset : Nat) (v : Value) :
    ∃ m', closeCell offset v m = (.ok (), m') ∧ m'.mem = m.mem ∧ Closes offset v m.cells m'.cells := by
  unfold closeCell
  cases h : findOpen m.cells m.openUps 0 offset with
  | none =>
    exact ⟨m, rfl, rfl, fun a => ⟨fun ha => absurd ha (findOpen_none h a (hi.registered a offset ha)), fun _ => rfl⟩⟩
  | some r =>
    obtain ⟨i, b⟩ := r
    obtain ⟨-, h2, h3⟩ := findOpen_some h
    refine ⟨_, rfl, rfl, fun a => ?_⟩
    dsimp only
    rw [List.getElem?_set]
    by_cases hab : b = a
    · subst hab
      rw [if_pos rfl, if_pos (List.getElem?_eq_some_iff.mp h3).1]
      exact ⟨fun _ => rfl, fun h => absurd h3 h⟩
    · rw [if_neg hab]
      exact ⟨fun ha => absurd (hi.unique b a offset h3 ha) hab, fun _ => rfl⟩

theorem closeUpvalue_eval {m : VM} (hi : CellsInv m) {f : Frame} {i : Nat} (h1 : f.stop ≤ maxStack)
    (h2 : f.start + i < f.stop) :
    ∃ m', closeUpvalue f i m = (.ok (), m') ∧ CellsInv m' ∧ m'.mem = upd m.mem (f.start + i) .null ∧
      Closes (f.start + i) (m.mem (f.start + i)) m.cells m'.cells := by
  have hi1 : CellsInv { m with mem := upd m.mem (f.start + i) .null } := hi
  obtain ⟨m', e1, e2, e3⟩ := closeCell_eval hi1 (f.start + i) (m.mem (f.start + i))
  refine ⟨m', ?_, ?_, e2, e3⟩
  · unfold closeUpvalue
    rw [bind_ok (frameGet_eval h1 h2), bind_ok (frameSet_eval _ h1 h2)]
    exact e1
  · have := closeCell_inv (f.start + i) (m.mem (f.start + i)) hi1
    rw [e1] at this
    exact this

theorem bool_cases {b : Bool} (h1 : b = true) (h2 : b = false) : False := by
  rw [h1] at h2
  exact nomatch h2

theorem captureLocal_eval {m : VM} (hi : CellsInv m) (t : Nat) :
    ∃ a m', captureLocal t m = (.ok a, m') ∧ CellsInv m' ∧ m'.mem = m.mem ∧ m'.cells[a]? = some (.open t) ∧
      (∀ b s : Nat, m'.cells[b]? = some (.open s) ↔ m.cells[b]? = some (.open s) ∨ (b = a ∧ s = t)) ∧
      (∀ (b : Nat) (v : Value), m.cells[b]? = some (.closed v) → m'.cells[b]? = some (.closed v)) := by
  have hinv := capture_inv t hi
  unfold captureLocal at hinv ⊢
  cases h : findOpen m.cells m.openUps 0 t with
  | some x =>
    obtain ⟨i, a⟩ := x
    obtain ⟨-, -, ha⟩ := findOpen_some h
    refine ⟨a, m, rfl, hi, rfl, ha, fun b s => ⟨.inl, ?_⟩, fun _ _ h => h⟩
    rintro (h1 | ⟨rfl, rfl⟩)
    · exact h1
    · exact ha
  | none =>
    rw [h] at hinv
    refine ⟨m.cells.length, _, rfl, hinv, rfl, getElem?_append_one.mpr (.inr ⟨rfl, rfl⟩), ?_, ?_⟩
    · intro b s
      rw [getElem?_append_one]
      constructor
      · rintro (h1 | ⟨h1, h2⟩)
        · exact .inl h1
        · cases h2
          exact .inr ⟨h1, rfl⟩
      · rintro (h1 | ⟨h1, h2⟩)
        · exact .inl h1
        · exact .inr ⟨h1, by rw [h2]⟩
    · intro b v hb
      exact getElem?_append_one.mpr (.inl hb)

theorem VarRep.writeClosed {offset : Nat} {m : VM} {cs : List Nat} {s : SharedVar} (hrep : VarRep offset m cs s)
    (hl : s.live = false) {a : Nat} (ha : a ∈ cs) (v : Value) :
    VarRep offset { m with cells := m.cells.set a (.closed v) } cs { s with val := v } := by
  have hc := hrep.dead hl a ha
  have hinv : CellsInv { m with cells := m.cells.set a (.closed v) } := by
    have := writeCell_inv a v hrep.inv
    unfold writeCell at this
    rw [hc] at this
    exact this
  refine ⟨hinv, hrep.count, hrep.same, fun h => (bool_cases h hl).elim, fun _ b hb => ?_⟩
  rw [hrep.same b hb a ha]
  show (m.cells.set a _)[a]? = _
  rw [List.getElem?_set_self (List.getElem?_eq_some_iff.mp hc).1]

/-- One operation: the machine does what the shared cell does. -/
theorem capRun_step {f : Frame} {slot : Nat} (h1 : f.stop ≤ maxStack) (h2 : f.start + slot < f.stop)
    {m : VM} {cs : List Nat} {s s' : SharedVar} {op : CapOp} {r : Option Value}
    (hrep : VarRep (f.start + slot) m cs s) (hap : op.Apart cs m)
    (hs : s.step (f.start + slot) op = some (r, s')) :
    ∃ m' cs', capRun f slot cs op m = (.ok (r, cs'), m') ∧ VarRep (f.start + slot) m' cs' s' := by
  have hoff : f.start + slot < maxStack := by omega
  have hcell : ∀ i, i < s.closures → ∃ a, a ∈ cs ∧ upvalueAt (some cs) i m = (.ok a, m) := by
    intro i hi
    rw [← hrep.count] at hi
    refine ⟨cs[i], List.getElem_mem hi, ?_⟩
    unfold upvalueAt
    dsimp only
    rw [List.getElem?_eq_some_iff.mpr ⟨hi, rfl⟩]
    rfl
  cases op with
  | readLocal =>
    simp only [SharedVar.step] at hs
    split at hs
    · rename_i hl
      cases hs
      refine ⟨m, cs, ?_, hrep⟩
      show (frameGet f slot >>= _) m = _
      rw [bind_ok (frameGet_eval h1 h2), (hrep.live hl).1]
      rfl
    · exact nomatch hs
  | writeLocal v =>
    simp only [SharedVar.step] at hs
    split at hs
    · rename_i hl
      cases hs
      refine ⟨{ m with mem := upd m.mem (f.start + slot) v }, cs, ?_, ?_⟩
      · show (frameSet f slot v >>= _) m = _
        rw [bind_ok (frameSet_eval v h1 h2)]
        rfl
      · exact ⟨hrep.inv, hrep.count, hrep.same, fun _ => ⟨upd_same _ _ _, (hrep.live hl).2⟩,
          fun hd => (bool_cases hl hd).elim⟩
    · exact nomatch hs
  | capture =>
    simp only [SharedVar.step] at hs
    split at hs
    · rename_i hl
      cases hs
      obtain ⟨a, m', e1, e2, e3, e4, e5, -⟩ := captureLocal_eval hrep.inv (f.start + slot)
      have hopen : ∀ b : Nat, m'.cells[b]? = some (.open (f.start + slot)) ↔ b ∈ cs ++ [a] := by
        intro b
        rw [e5, (hrep.live hl).2 b, List.mem_append, List.mem_singleton]
        simp
      refine ⟨m', cs ++ [a], ?_, ⟨e2, by simp [hrep.count], ?_, fun _ => ⟨?_, hopen⟩, fun hd => (bool_cases hl hd).elim⟩⟩
      · show (captureLocal _ >>= _) m = _
        rw [bind_ok e1]
        rfl
      · intro b hb c hc
        exact e2.unique b c _ ((hopen b).mpr hb) ((hopen c).mpr hc)
      · rw [e3]
        exact (hrep.live hl).1
    · exact nomatch hs
  | readVia i =>
    simp only [SharedVar.step] at hs
    split at hs
    · rename_i hi
      cases hs
      obtain ⟨a, hmem, hu⟩ := hcell i hi
      refine ⟨m, cs, ?_, hrep⟩
      have hr : readCell a m = (.ok s.val, m) := by
        unfold readCell
        cases hl : s.live with
        | true =>
          rw [((hrep.live hl).2 a).mpr hmem]
          dsimp only
          unfold memGet
          rw [if_pos hoff, (hrep.live hl).1]
        | false => rw [hrep.dead hl _ hmem]
      show (upvalueAt (some cs) i >>= _) m = _
      rw [bind_ok hu, bind_ok hr]
      rfl
    · exact nomatch hs
  | writeVia i v =>
    simp only [SharedVar.step] at hs
    split at hs
    · rename_i hi
      cases hs
      obtain ⟨a, hmem, hu⟩ := hcell i hi
      cases hl : s.live with
      | true =>
        have hw : writeCell a v m = (.ok (), { m with mem := upd m.mem (f.start + slot) v }) := by
          unfold writeCell
          rw [((hrep.live hl).2 a).mpr hmem]
          exact memSet_eval v hoff
        refine ⟨{ m with mem := upd m.mem (f.start + slot) v }, cs, ?_, ?_⟩
        · show (upvalueAt (some cs) i >>= _) m = _
          rw [bind_ok hu, bind_ok hw]
          rfl
        · exact ⟨hrep.inv, hrep.count, hrep.same, fun _ => ⟨upd_same _ _ _, (hrep.live hl).2⟩,
            fun hd => (bool_cases (b := s.live) hl (by rw [hl]; exact hd)).elim⟩
      | false =>
        have hw : writeCell a v m = (.ok (), { m with cells := m.cells.set a (.closed v) }) := by
          unfold writeCell
          rw [hrep.dead hl _ hmem]
        refine ⟨_, cs, ?_, by rw [← hl]; exact hrep.writeClosed hl hmem v⟩
        show (upvalueAt (some cs) i >>= _) m = _
        rw [bind_ok hu, bind_ok hw]
        rfl
    · exact nomatch hs
  | close =>
    simp only [SharedVar.step] at hs
    split at hs
    · rename_i hl
      cases hs
      obtain ⟨m', e1, e2, e3, e4⟩ := closeUpvalue_eval hrep.inv h1 h2
      refine ⟨m', cs, ?_, ⟨e2, hrep.count, hrep.same, fun h => Bool.noConfusion h, ?_⟩⟩
      · show (closeUpvalue f slot >>= _) m = _
        rw [bind_ok e1]
        rfl
      · intro _ a ha
        rw [(e4 a).1 (((hrep.live hl).2 a).mpr ha), (hrep.live hl).1]
    · exact nomatch hs
  | stack j v =>
    simp only [SharedVar.step] at hs
    split at hs
    · rename_i hj
      cases hs
      refine ⟨{ m with mem := upd m.mem j v }, cs, ?_, ?_⟩
      · show (memSet j v >>= _) m = _
        rw [bind_ok (memSet_eval v hj.1)]
        rfl
      · refine ⟨hrep.inv, hrep.count, hrep.same, fun hl => ⟨?_, (hrep.live hl).2⟩, hrep.dead⟩
        show upd m.mem j v _ = _
        rw [upd_other (fun e => hj.2 hl e.symm)]
        exact (hrep.live hl).1
    · exact nomatch hs
  | captureOther t =>
    simp only [SharedVar.step] at hs
    split at hs
    · rename_i ht
      cases hs
      obtain ⟨a, m', e1, e2, e3, e4, e5, e6⟩ := captureLocal_eval hrep.inv t
      refine ⟨m', cs, ?_, ⟨e2, hrep.count, hrep.same, fun hl => ⟨?_, ?_⟩, fun hd a ha => e6 a _ (hrep.dead hd a ha)⟩⟩
      · show (captureLocal t >>= _) m = _
        rw [bind_ok e1]
        rfl
      · rw [e3]
        exact (hrep.live hl).1
      · intro b
        rw [e5, (hrep.live hl).2 b]
        constructor
        · rintro (h | ⟨-, h⟩)
          · exact h
          · exact absurd h.symm (ht hl)
        · exact .inl
    · exact nomatch hs
  | closeOther g j =>
    simp only [SharedVar.step] at hs
    split at hs
    · rename_i hg
      cases hs
      obtain ⟨m', e1, e2, e3, e4⟩ := closeUpvalue_eval hrep.inv hg.1 hg.2.1
      refine ⟨m', cs, ?_, ⟨e2, hrep.count, hrep.same, fun hl => ⟨?_, ?_⟩, ?_⟩⟩
      · show (closeUpvalue g j >>= _) m = _
        rw [bind_ok e1]
        rfl
      · rw [e3, upd_other (fun e => hg.2.2 hl e.symm)]
        exact (hrep.live hl).1
      · intro a
        rw [← (hrep.live hl).2 a]
        by_cases ha : m.cells[a]? = some (.open (g.start + j))
        · rw [(e4 a).1 ha, ha]
          constructor
          · exact fun h => nomatch h
          · intro h
            have h' : g.start + j = f.start + slot := by
              injection h with h
              injection h
            exact absurd h' (hg.2.2 hl)
        · rw [(e4 a).2 ha]
      · intro hd a ha
        rw [(e4 a).2 (by rw [hrep.dead hd a ha]; exact fun h => nomatch h)]
        exact hrep.dead hd a ha
    · exact nomatch hs
  | writeOther a v =>
    simp only [SharedVar.step] at hs
    cases hs
    obtain ⟨ha1, ha2, ha3⟩ := hap
    have hget := List.getElem?_eq_some_iff.mpr ⟨ha2, rfl⟩
    cases hc : m.cells[a] with
    | «open» t =>
      rw [hc] at hget
      have hw : writeCell a v m = (.ok (), { m with mem := upd m.mem t v }) := by
        unfold writeCell
        rw [hget]
        exact memSet_eval v (ha3 t hget)
      refine ⟨{ m with mem := upd m.mem t v }, cs, ?_,
        ⟨hrep.inv, hrep.count, hrep.same, fun hl => ⟨?_, (hrep.live hl).2⟩, hrep.dead⟩⟩
      · show (writeCell a v >>= _) m = _
        rw [bind_ok hw]
        rfl
      · show upd m.mem t v _ = _
        rw [upd_other]
        · exact (hrep.live hl).1
        · intro e
          rw [← e] at hget
          exact ha1 (((hrep.live hl).2 a).mp hget)
    | closed u =>
      rw [hc] at hget
      have hw : writeCell a v m = (.ok (), { m with cells := m.cells.set a (.closed v) }) := by
        unfold writeCell
        rw [hget]
      have hinv : CellsInv { m with cells := m.cells.set a (.closed v) } := by
        have := writeCell_inv a v hrep.inv
        rw [hw] at this
        exact this
      refine ⟨_, cs, ?_, ⟨hinv, hrep.count, hrep.same, fun hl => ⟨(hrep.live hl).1, ?_⟩, ?_⟩⟩
      · show (writeCell a v >>= _) m = _
        rw [bind_ok hw]
        rfl
      · intro b
        rw [← (hrep.live hl).2 b]
        show (m.cells.set a _)[b]? = _ ↔ _
        by_cases hab : a = b
        · subst hab
          rw [List.getElem?_set_self ha2, hget]
          constructor <;> exact fun h => nomatch h
        · rw [List.getElem?_set_ne hab]
      · intro hd b hb
        show (m.cells.set a _)[b]? = _
        rw [List.getElem?_set_ne (fun e => ha1 (by rw [e]; exact hb))]
        exact hrep.dead hd b hb

/-- A sequence of operations on the shared cell, with everything that is read. -/
def SharedVar.run (offset : Nat) : List CapOp → SharedVar → Option (List Value × SharedVar)
  | [], s => some ([], s)
  | op :: rest, s =>
    match s.step offset op with
    | none => none
    | some (r, s1) =>
      match SharedVar.run offset rest s1 with
      | none => none
      | some (out, s2) => some (r.toList ++ out, s2)

/-- The same sequence on the machine. -/
def capRunAll (f : Frame) (slot : Nat) : List CapOp → List Nat → V (List Value)
  | [], _ => pure []
  | op :: rest, cs => do
    let r ← capRun f slot cs op
    let out ← capRunAll f slot rest r.2
    pure (r.1.toList ++ out)

/-- Writes through other cells stay apart, all along the run. -/
def ApartAll (f : Frame) (slot : Nat) : List CapOp → List Nat → VM → Prop
  | [], _, _ => True
  | op :: rest, cs, m => op.Apart cs m ∧
    ∀ r cs' m', capRun f slot cs op m = (.ok (r, cs'), m') → ApartAll f slot rest cs' m'

/-- **C28**: whatever the interleaving of reads, writes and captures by the declaring function and by all the
closures, of the end of the scope, and of everything else the machine does with other variables and with the
stack, what is read is what a single shared cell would give. -/
theorem captured_variable_shared {f : Frame} {slot : Nat} (h1 : f.stop ≤ maxStack) (h2 : f.start + slot < f.stop)
    (ops : List CapOp) {m : VM} {cs : List Nat} {s s' : SharedVar} {out : List Value}
    (hrep : VarRep (f.start + slot) m cs s) (hap : ApartAll f slot ops cs m)
    (hs : SharedVar.run (f.start + slot) ops s = some (out, s')) :
    ∃ m', capRunAll f slot ops cs m = (.ok out, m') := by
  induction ops generalizing m cs s out with
  | nil =>
    cases hs
    exact ⟨m, rfl⟩
  | cons op rest ih =>
    unfold SharedVar.run at hs
    cases hstep : s.step (f.start + slot) op with
    | none =>
      rw [hstep] at hs
      exact nomatch hs
    | some x =>
      obtain ⟨r, s1⟩ := x
      rw [hstep] at hs
      dsimp only at hs
      cases hrun : SharedVar.run (f.start + slot) rest s1 with
      | none =>
        rw [hrun] at hs
        exact nomatch hs
      | some y =>
        obtain ⟨out2, s2⟩ := y
        rw [hrun] at hs
        cases hs
        obtain ⟨m1, cs1, e1, e2⟩ := capRun_step h1 h2 hrep hap.1 hstep
        obtain ⟨m2, e3⟩ := ih e2 (hap.2 _ _ _ e1) hrun
        refine ⟨m2, ?_⟩
        show (capRun f slot cs op >>= _) m = _
        rw [bind_ok e1, bind_ok e3]
        rfl

/-- A variable that nobody has captured yet, in a machine without a stale capture of its slot. -/
theorem VarRep.fresh {offset : Nat} {m : VM} (hi : CellsInv m)
    (hn : ∀ a : Nat, m.cells[a]? ≠ some (.open offset)) :
    VarRep offset m [] { val := m.mem offset, live := true, closures := 0 } :=
  ⟨hi, rfl, (fun _ h => nomatch h), (fun _ => ⟨rfl, fun a => ⟨fun h => absurd h (hn a), fun h => nomatch h⟩⟩),
    (fun h => Bool.noConfusion h)⟩

/-- Two closures, assignments from all sides, the scope ends and the slot is reused. -/
example : ∃ m', capRunAll ⟨0, 4⟩ 1
    [.writeLocal (.int 1), .capture, .capture, .writeVia 0 (.int 2), .readVia 1, .readLocal, .close, .stack 1 (.int 9),
      .readVia 0, .writeVia 1 (.int 3), .readVia 0] [] {} =
    (.ok [.int 2, .int 2, .int 2, .int 3], m') :=
  captured_variable_shared (by decide) (by decide) _
    (VarRep.fresh ⟨fun _ _ h => by simp at h, fun _ _ _ h => by simp at h⟩ (fun _ h => by simp at h))
    (by repeat' first | exact trivial | (refine ⟨trivial, fun _ _ _ _ => ?_⟩)) rfl

end Dice
