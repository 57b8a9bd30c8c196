import Verif.Findings

/-!
# Constructors of base classes

A class without `new` whose base has one cannot be called without arguments.  With arguments, or with the constructor further
up, it can, and the constructor does not run.
-/

namespace Dice

theorem V.run_ok {α β : Type} {x : V α} {f : α → V β} {m m' : VM} {a : α} (h : x m = (.ok a, m')) : (x >>= f) m = f a m' := by
  show V.bind x f m = _
  unfold V.bind
  rw [h]

theorem V.run_err {α β : Type} {x : V α} {f : α → V β} {m m' : VM} {e : RtErr} (h : x m = (.err e, m')) : (x >>= f) m = (.err e, m') := by
  show V.bind x f m = _
  unfold V.bind
  rw [h]

/-- **C76.**  Calling a class without `new` and without arguments is an error if its base has one, and otherwise gives a new
instance, without running anything.  Missing: arguments (`constructor_skipped_by_argument`) and constructors of older
ancestors (`constructor_skipped_by_class`). -/
theorem missing_constructor_partial {w : World} {n c : Nat} {m : VM} (hp : 0 < m.ptr) (hs : m.ptr ≤ maxStack)
    (ht : m.mem (m.ptr - 1) = .cls c) (hn : m.heap.method c "new" = none) :
    (∀ b f, m.heap.classes[c]?.bind (·.base) = some b → m.heap.method b "new" = some f → (callFn w (n + 2) 0 m).1 = .err .mustHaveNew) ∧
    ((∀ b, m.heap.classes[c]?.bind (·.base) = some b → m.heap.method b "new" = none) →
      ∃ m', callFn w (n + 2) 0 m = (.ok (), m') ∧ m'.ptr = m.ptr ∧ m'.mem (m.ptr - 1) = (m.heap.newObject c).1 ∧
        (∀ i, i < m.ptr - 1 → m'.mem i = m.mem i) ∧ m'.heap = (m.heap.newObject c).2) := by
  have hpeek : peek 0 m = (.ok (.cls c), m) := by
    unfold peek
    rw [if_pos ⟨hp, by omega⟩, Nat.sub_zero, ht]
  have hobj : onHeap (fun h => h.newObject c) m = (.ok (m.heap.newObject c).1, { m with heap := (m.heap.newObject c).2 }) := rfl
  have hget : V.get { m with heap := (m.heap.newObject c).2 } =
    (.ok { m with heap := (m.heap.newObject c).2 }, { m with heap := (m.heap.newObject c).2 }) := rfl
  have hn' : (m.heap.newObject c).2.method c "new" = none := hn
  constructor
  · intro b f hb hf
    have hctor : callCtor w (n + 1) 0 c (m.heap.newObject c).1 { m with heap := (m.heap.newObject c).2 } =
        (.err .mustHaveNew, { m with heap := (m.heap.newObject c).2 }) := by
      rw [callCtor, V.run_ok hget]
      refine V.run_err ?_
      simp only [hn']
      have hb' : ((m.heap.newObject c).2.classes[c]?.bind (·.base)).bind ((m.heap.newObject c).2.method · "new") = some f := by
        show (m.heap.classes[c]?.bind (·.base)).bind (m.heap.method · "new") = _
        rw [hb]
        exact hf
      simp only [Nat.lt_irrefl, if_false, gt_iff_lt, hb']
      rfl
    rw [callFn, V.run_ok hpeek]
    have : callTarget (.cls c) = (.cls c, none) := rfl
    rw [this]
    dsimp only
    rw [V.run_err ((V.run_ok hobj).trans hctor)]
  · intro hb
    have hctor : callCtor w (n + 1) 0 c (m.heap.newObject c).1 { m with heap := (m.heap.newObject c).2 } =
        (.ok (m.heap.newObject c).1, { m with heap := (m.heap.newObject c).2, mem := upd m.mem (m.ptr - 1) .null, ptr := m.ptr - 1 }) := by
      rw [callCtor, V.run_ok hget]
      have hb' : ((m.heap.newObject c).2.classes[c]?.bind (·.base)).bind ((m.heap.newObject c).2.method · "new") = none := by
        show (m.heap.classes[c]?.bind (·.base)).bind (m.heap.method · "new") = _
        cases hc : m.heap.classes[c]?.bind (·.base) with
        | none => rfl
        | some b => exact hb b hc
      have hpop : pop { m with heap := (m.heap.newObject c).2 } = (.ok (m.mem (m.ptr - 1)),
          { m with heap := (m.heap.newObject c).2, mem := upd m.mem (m.ptr - 1) .null, ptr := m.ptr - 1 }) := by
        unfold pop
        rw [if_neg (by show ¬ (m.ptr = 0 ∨ maxStack < m.ptr); omega)]
      refine (V.run_ok (a := (m.heap.newObject c).1) (m' := { m with heap := (m.heap.newObject c).2 }) ?_).trans
        ((V.run_ok hpop).trans rfl)
      simp only [hn', Nat.lt_irrefl, if_false, gt_iff_lt, hb']
      rfl
    refine ⟨{ m with heap := (m.heap.newObject c).2, mem := upd (upd m.mem (m.ptr - 1) .null) (m.ptr - 1) (m.heap.newObject c).1, ptr := m.ptr - 1 + 1 }, ?_, ?_, ?_, ?_, rfl⟩
    · rw [callFn, V.run_ok hpeek]
      have : callTarget (.cls c) = (.cls c, none) := rfl
      rw [this]
      dsimp only
      rw [V.run_ok ((V.run_ok hobj).trans hctor)]
      unfold push
      rw [if_pos (by show m.ptr - 1 < maxStack; omega)]
    · show m.ptr - 1 + 1 = m.ptr
      omega
    · simp [upd]
    · intro i hi
      have : i ≠ m.ptr - 1 := by omega
      simp [upd, this]

/-- Beside it: a class with a constructor and two that extend it, one after the other. -/
def family : Heap :=
  { maps := [[]]
    classes := [⟨"A", [("new", .fnNative 0)], ⟨none, 0⟩, [0], none⟩, ⟨"B", [], ⟨none, 0⟩, [1, 0], some 0⟩, ⟨"C", [], ⟨none, 0⟩, [2, 1, 0], some 1⟩] }

example {w : World} {n : Nat} : (callFn w (n + 2) 0 { mem := fun _ => .cls 1, ptr := 1, heap := family }).1 = .err .mustHaveNew :=
  (missing_constructor_partial (by decide) (by decide) rfl rfl).1 0 (.fnNative 0) rfl rfl

/-- **C76, refuted for all hierarchies.**  With an argument, calling a class without `new` gives a new instance and runs nothing,
whatever its ancestors are (dice-runtime/src/interpreter/helper.rs:145-149). -/
theorem arguments_skip_constructors {w : World} {n c argc : Nat} {m : VM} (ha : 0 < argc) (hp : argc < m.ptr) (hs : m.ptr ≤ maxStack)
    (ht : m.mem (m.ptr - argc - 1) = .cls c) (hn : m.heap.method c "new" = none) :
    ∃ m', callFn w (n + 2) argc m = (.ok (), m') ∧ m'.ptr = m.ptr - argc ∧ m'.mem (m.ptr - argc - 1) = (m.heap.newObject c).1 ∧
      (∀ i, i < m.ptr - argc - 1 → m'.mem i = m.mem i) ∧ m'.heap = (m.heap.newObject c).2 := by
  have hpeek : peek argc m = (.ok (.cls c), m) := by
    unfold peek
    rw [if_pos ⟨hp, by omega⟩, ht]
  have hobj : onHeap (fun h => h.newObject c) m = (.ok (m.heap.newObject c).1, { m with heap := (m.heap.newObject c).2 }) := rfl
  have hget : V.get { m with heap := (m.heap.newObject c).2 } =
    (.ok { m with heap := (m.heap.newObject c).2 }, { m with heap := (m.heap.newObject c).2 }) := rfl
  have hn' : (m.heap.newObject c).2.method c "new" = none := hn
  have hcount : popCount argc { m with heap := (m.heap.newObject c).2 } = (.ok (memRange m.mem (m.ptr - argc) argc),
      { m with heap := (m.heap.newObject c).2, mem := memClear m.mem (m.ptr - argc) m.ptr, ptr := m.ptr - argc }) := by
    unfold popCount
    rw [if_pos (by exact ⟨Nat.le_of_lt hp, hs⟩)]
  have hpop : pop { m with heap := (m.heap.newObject c).2, mem := memClear m.mem (m.ptr - argc) m.ptr, ptr := m.ptr - argc } =
      (.ok (memClear m.mem (m.ptr - argc) m.ptr (m.ptr - argc - 1)),
        { m with heap := (m.heap.newObject c).2, mem := upd (memClear m.mem (m.ptr - argc) m.ptr) (m.ptr - argc - 1) .null, ptr := m.ptr - argc - 1 }) := by
    unfold pop
    rw [if_neg (by show ¬ (m.ptr - argc = 0 ∨ maxStack < m.ptr - argc); omega)]
  have hctor : callCtor w (n + 1) argc c (m.heap.newObject c).1 { m with heap := (m.heap.newObject c).2 } =
      (.ok (m.heap.newObject c).1, { m with heap := (m.heap.newObject c).2, mem := upd (memClear m.mem (m.ptr - argc) m.ptr) (m.ptr - argc - 1) .null, ptr := m.ptr - argc - 1 }) := by
    rw [callCtor, V.run_ok hget]
    refine (V.run_ok (a := (m.heap.newObject c).1)
      (m' := { m with heap := (m.heap.newObject c).2, mem := memClear m.mem (m.ptr - argc) m.ptr, ptr := m.ptr - argc }) ?_).trans
      ((V.run_ok hpop).trans rfl)
    simp only [hn', gt_iff_lt, ha, if_true]
    exact (V.run_ok hcount).trans rfl
  refine ⟨{ m with heap := (m.heap.newObject c).2, mem := upd (upd (memClear m.mem (m.ptr - argc) m.ptr) (m.ptr - argc - 1) .null) (m.ptr - argc - 1) (m.heap.newObject c).1, ptr := m.ptr - argc - 1 + 1 }, ?_, ?_, ?_, ?_, rfl⟩
  · rw [callFn, V.run_ok hpeek]
    have : callTarget (.cls c) = (.cls c, none) := rfl
    rw [this]
    dsimp only
    rw [V.run_ok ((V.run_ok hobj).trans hctor)]
    unfold push
    rw [if_pos (by show m.ptr - argc - 1 < maxStack; omega)]
  · show m.ptr - argc - 1 + 1 = m.ptr - argc
    omega
  · simp [upd]
  · intro i hi
    have h1 : i ≠ m.ptr - argc - 1 := by omega
    have h2 : ¬ m.ptr - argc ≤ i := by omega
    simp [upd, memClear, h1, h2]

example {w : World} {n : Nat} : (callFn w (n + 2) 1 { mem := fun i => if i = 0 then .cls 1 else .int 5, ptr := 2, heap := family }).1 = .ok () := by
  obtain ⟨m', h, _⟩ := arguments_skip_constructors (w := w) (n := n) (c := 1) (argc := 1)
    (m := { mem := fun i => if i = 0 then .cls 1 else .int 5, ptr := 2, heap := family }) (by decide) (by decide) (by decide) rfl rfl
  rw [h]

open Findings in
/-- **C76, refuted.**  An argument keeps the constructor of the base from running and hides the error
(dice-runtime/src/interpreter/helper.rs:145-149). -/
theorem constructor_skipped_by_argument :
    Fails true "class A { fn new(self) { self.x = 1 } } class B: A { } B()" .mustHaveNew 4 ∧
    Gives true "class A { fn new(self) { self.x = 1 } } class B: A { } B(0).x" .null 0 :=
  ⟨fails (e := seq [.classDecl "A" none [.fnDecl "new" [⟨"self", none⟩] none (.block []
        (some (.assign .assign (.field (var "self") "x") (.int 1))))], .classDecl "B" (some (var "A")) []]
      (call (var "B") [])) (by kernel_rfl) (by decide +kernel),
    gives (e := seq [.classDecl "A" none [.fnDecl "new" [⟨"self", none⟩] none (.block []
        (some (.assign .assign (.field (var "self") "x") (.int 1))))], .classDecl "B" (some (var "A")) []]
      (.field (call (var "B") [.int 0]) "x")) (by kernel_rfl) (by decide +kernel)⟩

open Findings in
/-- **C76, refuted.**  A class in between keeps the constructor of an older ancestor from running. -/
theorem constructor_skipped_by_class :
    Gives true "class A { fn new(self) { self.x = 1 } } class B: A { } class C: B { } C().x" .null 0 :=
  gives (e := seq [.classDecl "A" none [.fnDecl "new" [⟨"self", none⟩] none (.block []
        (some (.assign .assign (.field (var "self") "x") (.int 1))))], .classDecl "B" (some (var "A")) [],
        .classDecl "C" (some (var "B")) []]
      (.field (call (var "C") []) "x")) (by kernel_rfl) (by decide +kernel)

end Dice
