import Verif.SimProps
import Verif.Natives
import Verif.KernelRfl

/-!
# Programs that call the native functions of the runtime

The native functions of the classes (`Natives`) treat the functions of the program as opaque values.  So C18 covers
programs that call them in the runtime's world, from a new runtime.
-/

namespace Dice

open Natives Sim

/-- Values whose text does not depend on the heap. -/
def hasText : Value → Bool
  | .null | .unit | .bool _ | .int _ | .str _ | .sym _ | .fnNative _ => true
  | _ => false

/-- The calls that the evaluator covers: not those that call back, and not the text of floats, functions and
references. -/
def knownFn : Fn → List Value → Bool
  | .toString, v :: _ => hasText v
  | .newString, _ :: v :: _ => hasText v
  | .first, args => args.length == 1
  | .filter, args => args.length ≤ 1
  | .map, args => args.length ≤ 1
  | _, _ => true

/-- The native functions of the runtime that the evaluator covers. -/
def runtimeKnown : Src.Known := fun i args =>
  match registered[i]? with
  | some (_, _, f) => knownFn f args
  | none => true

section
variable {κ : List Value} {a b : Heap}

theorem MapRel.keys {x y : ValueMap} (h : MapRel κ x y) : Natives.keys x = Natives.keys y := by
  unfold Natives.keys
  congr 1
  induction h with
  | nil => rfl
  | cons h _ ih => rw [List.map_cons, List.map_cons, h.1, ih]

theorem HeapRel.elements (h : HeapRel κ a b) (c : Nat) : All₂ (VRel κ) (Natives.elements a c) (Natives.elements b c) := by
  unfold Natives.elements
  rcases h.arrays.get c with ⟨h1, h2⟩ | ⟨x, y, h1, h2, hr⟩
  · rw [h1, h2]; exact .nil
  · rw [h1, h2]; exact hr.elements

theorem all₂_strings (l : List String) : All₂ (VRel κ) (l.map .str) (l.map .str) := by
  induction l with
  | nil => exact .nil
  | cons x l ih => exact .cons (.plain trivial) ih

theorem HeapRel.nativeClassOf (h : HeapRel κ a b) {v u : Value} (hv : VRel κ v u) : Natives.classOf a v = Natives.classOf b u := by
  unfold Natives.classOf
  rw [h.asObject hv, hv.kind]

theorem HeapRel.pushElement (h : HeapRel κ a b) (c : Nat) {v u : Value} (hv : VRel κ v u) :
    HeapRel κ (Natives.pushElement a c v) (Natives.pushElement b c u) :=
  { h with arrays := h.arrays.modify _ fun _ _ h => ⟨h.elements.snoc hv, h.object⟩ }

theorem all₂_dropLast {x y : List Value} (h : All₂ (VRel κ) x y) : All₂ (VRel κ) x.dropLast y.dropLast := by
  induction h with
  | nil => exact .nil
  | cons h hs ih =>
    cases hs with
    | nil => exact .nil
    | cons h' hs' => exact .cons h ih

theorem all₂_last {x y : List Value} (h : All₂ (VRel κ) x y) {v : Value} (hp : v.Plain) :
    VRel κ (x.getLast?.getD v) (y.getLast?.getD v) := by
  induction h with
  | nil => exact .plain hp
  | cons h hs ih =>
    cases hs with
    | nil => exact h
    | cons h' hs' => simpa [List.getLast?_cons_cons] using ih

theorem all₂_head {x y : List Value} (h : All₂ (VRel κ) x y) {v : Value} (hp : v.Plain) :
    VRel κ (x.head?.getD v) (y.head?.getD v) := by
  cases h with
  | nil => exact .plain hp
  | cons h hs => exact h

theorem HeapRel.popElement (h : HeapRel κ a b) (c : Nat) : HeapRel κ (Natives.popElement a c) (Natives.popElement b c) :=
  { h with arrays := h.arrays.modify _ fun _ _ h => ⟨all₂_dropLast h.elements, h.object⟩ }

/-- A value that both have, or a function. -/
theorem VRel.split {v u : Value} (h : VRel κ v u) :
    (v = u ∧ v.Plain) ∨ (v.kind = .function ∧ u.kind = .function) := by
  cases h with
  | plain hp => exact .inl ⟨rfl, hp⟩
  | fn h hf hp => exact .inr ⟨rfl, hf⟩
  | bound => exact .inr ⟨rfl, rfl⟩

theorem OutRel.null (hh : HeapRel κ a b) : OutRel κ (.ok .null, a) (.ok .null, b) := .ok (.plain trivial) hh

/-- A function whose first argument decides whether it does anything. -/
theorem fn_null {lib : FloatLib} {checks : Bool} {n : Nat} {v u : Value} {vs us : List Value} {f : Fn} (hf : v.kind = .function) (hh : HeapRel κ a b)
    (hu : u.kind = .function)
    (h1 : f ≠ .toString ∧ f ≠ .fields ∧ f ≠ .methods ∧ f ≠ .classOf ∧ f ≠ .newArray ∧ f ≠ .newBool ∧ f ≠ .newFloat ∧ f ≠ .newFunction ∧
      f ≠ .newInt ∧ f ≠ .newString) :
    OutRel κ (f.run lib checks n (v :: vs) a) (f.run lib checks n (u :: us) b) := by
  obtain ⟨h1, h2, h3, h4, h5, h6, h7, h8, h9, h10⟩ := h1
  have : ∀ {v : Value} {vs : List Value} (h : Heap), v.kind = .function → f.run lib checks n (v :: vs) h = (.ok .null, h) := by
    intro v vs h hv
    cases v <;> first | (cases hv; done) | (cases f <;> first | rfl | contradiction)
  rw [this a hf, this b hu]
  exact .null hh


theorem OutRel.array (hh : HeapRel κ a b) {x y : List Value} (h : All₂ (VRel κ) x y) :
    OutRel κ (.ok (a.newArray x).1, (a.newArray x).2) (.ok (b.newArray y).1, (b.newArray y).2) := by
  obtain ⟨h1, h2, h3⟩ := hh.newArray h
  rw [h1] at h2 ⊢
  exact .ok (.plain h2) h3

theorem HeapRel.objects_get (hh : HeapRel κ a b) (o : Nat) : a.objects[o]? = b.objects[o]? := by rw [hh.objects]

theorem OutRel.iter {lib : FloatLib} {checks : Bool} {vs us : List Value} (hh : HeapRel κ a b) (c n : Nat) :
    OutRel κ (Fn.run lib checks n .iter (.array c :: vs) a) (Fn.run lib checks n .iter (.array c :: us) b) := by
  show OutRel κ (match ((a.newArray [.array c, .int 0]).2.newObject anyClass).2.objects[(a.newArray [.array c, .int 0]).2.objects.length]? with
      | some obj => _
      | none => _)
    (match ((b.newArray [.array c, .int 0]).2.newObject anyClass).2.objects[(b.newArray [.array c, .int 0]).2.objects.length]? with
      | some obj => _
      | none => _)
  obtain ⟨-, -, h1⟩ := hh.newArray (ss := [.array c, .int 0]) (vs := [.array c, .int 0]) (.cons (.plain trivial) (.cons (.plain trivial) .nil))
  obtain ⟨h2, hp, h3⟩ := h1.newObject anyClass
  rw [h3.objects, h1.objects, hh.arrays.length]
  split
  · rw [h2] at hp
    show OutRel κ (.ok ((a.newArray [.array c, .int 0]).2.newObject anyClass).1, _) (.ok ((b.newArray [.array c, .int 0]).2.newObject anyClass).1, _)
    rw [h2]
    exact .ok (.plain hp) (h3.setField _ _ (.plain trivial))
  · exact .panic

theorem plain_getD {α : Type} (o : Option α) {f : α → Value} (h : ∀ x, (f x).Plain) : ((o.map f).getD .null).Plain := by
  cases o with
  | none => trivial
  | some x => exact h x

/-- The bodies of the native functions give related results for related arguments. -/
theorem fn_run_rel {lib : FloatLib} {checks : Bool} {n : Nat} {f : Fn} {args args' : List Value} (hk : knownFn f args = true)
    (ha : All₂ (VRel κ) args args') (hh : HeapRel κ a b) :
    OutRel κ (f.run lib checks n args a) (f.run lib checks n args' b) := by
  cases ha with
  | nil => cases f <;> exact .null hh
  | @cons v u vs us hv hs =>
    cases f with
    | toString =>
      cases hv with
      | plain => cases v <;> first | (cases hk; done) | exact .ok (.plain trivial) hh
      | fn => cases hk
      | bound => cases hk
    | fields =>
      show OutRel κ (match a.asObject v with | some o => _ | none => _) (match b.asObject u with | some o => _ | none => _)
      rw [hh.asObject hv]
      cases b.asObject u with
      | none => exact .null hh
      | some o =>
        rcases hh.maps.get o.fields with ⟨h1, h2⟩ | ⟨x, y, h1, h2, hr⟩
        · simp only [h1, h2]; exact .array hh (all₂_strings _)
        · simp only [h1, h2]; rw [show ((some x).getD []) = x from rfl, show ((some y).getD []) = y from rfl, MapRel.keys hr]
          exact .array hh (all₂_strings _)
    | methods =>
      have e : ((a.classes[Natives.classOf a v]?).map (·.methods)).getD [] = [] ∧ ((b.classes[Natives.classOf b u]?).map (·.methods)).getD [] = [] ∨
          MapRel κ (((a.classes[Natives.classOf a v]?).map (·.methods)).getD []) (((b.classes[Natives.classOf b u]?).map (·.methods)).getD []) := by
        rw [hh.nativeClassOf hv]
        rcases hh.classes.get (Natives.classOf b u) with ⟨h1, h2⟩ | ⟨x, y, h1, h2, hr⟩
        · rw [h1, h2]; exact .inl ⟨rfl, rfl⟩
        · rw [h1, h2]; exact .inr hr.methods
      have e : keys (((a.classes[Natives.classOf a v]?).map (·.methods)).getD []) = keys (((b.classes[Natives.classOf b u]?).map (·.methods)).getD []) := by
        rcases e with ⟨h1, h2⟩ | h
        · rw [h1, h2]
        · exact MapRel.keys h
      have run : ∀ {v : Value} {vs : List Value} (h : Heap), Fn.run lib checks n .methods (v :: vs) h =
          (.ok (h.newArray ((keys (((h.classes[Natives.classOf h v]?).map (·.methods)).getD [])).map .str)).1,
            (h.newArray ((keys (((h.classes[Natives.classOf h v]?).map (·.methods)).getD [])).map .str)).2) := fun _ => rfl
      rw [run, run, e]
      exact .array hh (all₂_strings _)
    | classOf =>
      show OutRel κ (.ok (.cls (Natives.classOf a v)), a) (.ok (.cls (Natives.classOf b u)), b)
      rw [hh.nativeClassOf hv]
      exact .ok (.plain trivial) hh
    | newArray => exact .array hh hs
    | newFunction =>
      cases hs with
      | nil => exact .null hh
      | @cons v2 u2 _ _ hv2 _ =>
        show OutRel κ (.ok (if v2.kind = .function then v2 else .null), a) (.ok (if u2.kind = .function then u2 else .null), b)
        rw [hv2.kind]
        split
        · exact .ok hv2 hh
        · exact .null hh
    | newString =>
      cases hs with
      | nil => exact .null hh
      | @cons v2 u2 _ _ hv2 _ =>
        cases hv2 with
        | plain => cases v2 <;> first | (cases hk; done) | exact .ok (.plain trivial) hh
        | fn => cases hk
        | bound => cases hk
    | newBool | newInt | newFloat =>
      cases hs with
      | nil => exact .null hh
      | @cons v2 u2 _ _ hv2 _ =>
        rcases hv2.split with ⟨rfl, -⟩ | ⟨h1, h2⟩
        · cases v2 <;> first
            | exact .null hh
            | exact .ok (.plain trivial) hh
            | exact .ok (.plain (plain_getD _ fun _ => trivial)) hh
        · cases v2 <;> first | (cases h1; done) | (cases u2 <;> first | (cases h2; done) | exact .null hh)
    | push =>
      rcases hv.split with ⟨rfl, -⟩ | ⟨h1, h2⟩
      · cases hs with
        | nil => cases v <;> exact .null hh
        | cons h _ => cases v <;> first | exact .null hh | exact .ok (.plain trivial) (hh.pushElement _ h)
      · exact fn_null h1 hh h2 (by simp)
    | pop =>
      rcases hv.split with ⟨rfl, -⟩ | ⟨h1, h2⟩
      · cases v <;> first | exact .null hh | exact .ok (all₂_last (hh.elements _) trivial) (hh.popElement _)
      · exact fn_null h1 hh h2 (by simp)
    | length =>
      rcases hv.split with ⟨rfl, -⟩ | ⟨h1, h2⟩
      · cases v with
        | array c =>
          show OutRel κ (.ok (.int (elements a c).length), a) (.ok (.int (elements b c).length), b)
          rw [(hh.elements c).length]
          exact .ok (.plain trivial) hh
        | _ => exact .null hh
      · exact fn_null h1 hh h2 (by simp)
    | first =>
      rcases hv.split with ⟨rfl, -⟩ | ⟨h1, h2⟩
      · cases hs with
        | nil => cases v <;> first | exact .null hh | exact .ok (all₂_head (hh.elements _) trivial) hh
        | cons => cases hk
      · exact fn_null h1 hh h2 (by simp)
    | filter | map =>
      rcases hv.split with ⟨rfl, -⟩ | ⟨h1, h2⟩
      · cases hs with
        | nil => cases v <;> exact .null hh
        | cons => cases hk
      · exact fn_null h1 hh h2 (by simp)
    | iter =>
      rcases hv.split with ⟨rfl, -⟩ | ⟨h1, h2⟩
      · cases v <;> first | exact .null hh | exact .iter hh _ _
      · exact fn_null h1 hh h2 (by simp)
    | name =>
      rcases hv.split with ⟨rfl, -⟩ | ⟨h1, h2⟩
      · cases v with
        | cls c =>
          show OutRel κ (.ok (((a.classes[c]?).map fun cl => .str cl.name).getD .null), a) (.ok (((b.classes[c]?).map fun cl => .str cl.name).getD .null), b)
          rcases hh.classes.get c with ⟨h1, h2⟩ | ⟨x, y, h1, h2, hr⟩
          · rw [h1, h2]; exact .null hh
          · rw [h1, h2, Option.map_some, Option.map_some, hr.name]; exact .ok (.plain trivial) hh
        | _ => exact .null hh
      · exact fn_null h1 hh h2 (by simp)
    | base =>
      rcases hv.split with ⟨rfl, -⟩ | ⟨h1, h2⟩
      · cases v with
        | cls c =>
          show OutRel κ (.ok ((((a.classes[c]?).bind (·.base)).map .cls).getD .null), a) (.ok ((((b.classes[c]?).bind (·.base)).map .cls).getD .null), b)
          rcases hh.classes.get c with ⟨h1, h2⟩ | ⟨x, y, h1, h2, hr⟩
          · rw [h1, h2]; exact .null hh
          · rw [h1, h2, Option.bind_some, Option.bind_some, hr.base]
            cases y.base with
            | none => exact .null hh
            | some d => exact .ok (.plain trivial) hh
        | _ => exact .null hh
      · exact fn_null h1 hh h2 (by simp)
    | floatUnary | floatTest | isPositive | isNegative =>
      rcases hv.split with ⟨rfl, -⟩ | ⟨h1, h2⟩
      · cases v <;> first | exact .null hh | exact .ok (.plain trivial) hh
      · exact fn_null h1 hh h2 (by simp)
    | abs =>
      rcases hv.split with ⟨rfl, -⟩ | ⟨h1, h2⟩
      · cases v with
        | int i =>
          show OutRel κ (intResult checks i.natAbs, a) (intResult checks i.natAbs, b)
          unfold intResult
          repeat' split
          · exact .ok (.plain trivial) hh
          · exact .panic
          · exact .ok (.plain trivial) hh
        | _ => exact .null hh
      · exact fn_null h1 hh h2 (by simp)
    | floatBinary | min | max | concat =>
      rcases hv.split with ⟨rfl, -⟩ | ⟨h1, h2⟩
      · cases hs with
        | nil => cases v <;> exact .null hh
        | @cons v2 u2 _ _ hv2 _ =>
          rcases hv2.split with ⟨rfl, -⟩ | ⟨h1, h2⟩
          · cases v <;> first | exact .null hh | (cases v2 <;> first | exact .null hh | exact .ok (.plain trivial) hh)
          · cases v <;> first
              | exact .null hh
              | (cases v2 <;> first | (cases h1; done) | (cases u2 <;> first | (cases h2; done) | exact .null hh))
      · exact fn_null h1 hh h2 (by simp)
    | pow =>
      rcases hv.split with ⟨rfl, -⟩ | ⟨h1, h2⟩
      · cases hs with
        | nil => cases v <;> exact .null hh
        | @cons v2 u2 _ _ hv2 _ =>
          rcases hv2.split with ⟨rfl, -⟩ | ⟨h1, h2⟩
          · cases v with
            | int i =>
              cases v2 with
              | int e =>
                show OutRel κ (match powI64 checks i (e % 2 ^ 32).toNat with | some x => _ | none => _)
                  (match powI64 checks i (e % 2 ^ 32).toNat with | some x => _ | none => _)
                split
                · exact .ok (.plain trivial) hh
                · exact .panic
              | _ => exact .null hh
            | _ => exact .null hh
          · cases v <;> first
              | exact .null hh
              | (cases v2 <;> first | (cases h1; done) | (cases u2 <;> first | (cases h2; done) | exact .null hh))
      · exact fn_null h1 hh h2 (by simp)

theorem HeapRel.setCell (h : HeapRel κ a b) (c : Nat) {x y : List Value} (hx : All₂ (VRel κ) x y) :
    HeapRel κ { a with arrays := a.arrays.modify c fun c => { c with elements := x } }
      { b with arrays := b.arrays.modify c fun c => { c with elements := y } } :=
  { h with arrays := h.arrays.modify _ fun _ _ h => ⟨hx, h.object⟩ }

/-- The iterators of arrays, too. -/
theorem next_rel (hh : HeapRel κ a b) (c : Nat) : OutRel κ (Natives.next c a) (Natives.next c b) := by
  have he := hh.elements c
  have other : ∀ {h : Heap}, (∀ x i, Natives.elements h c ≠ [.array x, .int i]) → Natives.next c h = (.panic "not an iterator", h) := by
    intro h hn
    unfold Natives.next
    split
    · rename_i e; exact absurd e (hn _ _)
    · rfl
  by_cases hc : ∃ x i, Natives.elements a c = [.array x, .int i]
  · obtain ⟨x, i, e1⟩ := hc
    have e2 : Natives.elements b c = [.array x, .int i] := by
      have : ∀ {p q : List Value}, All₂ (VRel κ) p q → p = [.array x, .int i] → q = p := by
        rintro _ _ h rfl
        cases h with
        | @cons _ v _ _ h1 hs =>
          cases hs with
          | @cons _ v' _ _ h2 hs =>
            cases hs
            rcases h1.split with ⟨rfl, -⟩ | ⟨h, -⟩
            · rcases h2.split with ⟨rfl, -⟩ | ⟨h, -⟩
              · rfl
              · cases h
            · cases h
      exact (this he e1).trans e1
    obtain ⟨h2, hp, h3⟩ := hh.newObject anyClass
    have run : ∀ {h : Heap}, Natives.elements h c = [.array x, .int i] → Natives.next c h =
        match (h.newObject anyClass).2.objects[h.objects.length]? with
        | none => (.panic "unreachable", (h.newObject anyClass).2)
        | some obj =>
          match (Natives.elements (h.newObject anyClass).2 x)[i.toNat]? with
          | some v =>
            (.ok (h.newObject anyClass).1,
              { (((h.newObject anyClass).2.setField obj "value" v).setField obj "is_done" (.bool false)) with
                arrays := (((h.newObject anyClass).2.setField obj "value" v).setField obj "is_done" (.bool false)).arrays.modify c
                  fun c => { c with elements := [.array x, .int (i + 1)] } })
          | none => (.ok (h.newObject anyClass).1, (h.newObject anyClass).2.setField obj "is_done" (.bool true)) := by
      intro h e
      unfold Natives.next
      rw [e]
      rfl
    rw [run e1, run e2, h3.objects, hh.objects]
    rw [h2] at hp ⊢
    split
    · exact .panic
    · rcases (h3.elements x).get i.toNat with ⟨q1, q2⟩ | ⟨v, u, q1, q2, hv⟩
      · rw [q1, q2]
        exact .ok (.plain hp) (h3.setField _ _ (.plain trivial))
      · rw [q1, q2]
        exact .ok (.plain hp) (((h3.setField _ _ hv).setField _ _ (.plain (v := .bool false) trivial)).setCell _ (.cons (.plain (v := .array x) trivial) (.cons (.plain (v := .int (i + 1)) trivial) .nil)))
  · rw [other fun x i e => hc ⟨x, i, e⟩, other fun x i e => hc ⟨x, i, by
      have : ∀ {p q : List Value}, All₂ (VRel κ) p q → q = [.array x, .int i] → p = q := by
        rintro _ _ h rfl
        cases h with
        | @cons v _ _ _ h1 hs =>
          cases hs with
          | @cons v' _ _ _ h2 hs =>
            cases hs
            rcases h1.split with ⟨rfl, -⟩ | ⟨-, h⟩
            · rcases h2.split with ⟨rfl, -⟩ | ⟨-, h⟩
              · rfl
              · cases h
            · cases h
      exact (this he e).trans e⟩]
    exact .panic

end

/-- **C18.**  The native functions of the runtime treat functions of the program as opaque. -/
theorem runtime_natives (lib : FloatLib) (loader : String → Except RtErr Bytecode) (fmod : Float → Float → Float) (checks debug : Bool) :
    NativeRel (Natives.world lib loader fmod checks debug) runtimeKnown := by
  intro κ i args args' a b hk ha hh
  show OutRel κ (Natives.native lib checks i args a) (Natives.native lib checks i args' b)
  unfold runtimeKnown at hk
  unfold Natives.native
  cases hr : registered[i]? with
  | none => exact next_rel hh _
  | some p =>
    obtain ⟨c, nm, f⟩ := p
    rw [hr] at hk
    exact fn_run_rel hk ha hh

/-! ## A new runtime -/

theorem Sim.CleanHeap.setMethod {h : Heap} (c : CleanHeap h) (k : Nat) (key : String) {v : Value} (hv : v.Plain) : CleanHeap (h.setMethod k key v) where
  maps := c.maps
  arrays := c.arrays
  classes := by
    intro x hx p hp
    have hx : x ∈ h.classes.modify k fun cl => { cl with methods := cl.methods.insert key v } := hx
    obtain ⟨i, hi⟩ := List.getElem?_of_mem hx
    rw [List.getElem?_modify] at hi
    cases hg : h.classes[i]? with
    | none => rw [hg] at hi; cases hi
    | some y =>
      rw [hg] at hi
      have hy := List.mem_of_getElem? hg
      split at hi
      · cases hi
        cases hp with
        | head => exact hv
        | tail _ hp => exact c.classes y hy p hp
      · cases hi; exact c.classes y hy p hp

theorem Sim.CleanHeap.setField {h : Heap} (c : CleanHeap h) (o : Obj) (key : String) {v : Value} (hv : v.Plain) : CleanHeap (h.setField o key v) where
  arrays := c.arrays
  classes := c.classes
  maps := by
    intro x hx p hp
    have hx : x ∈ h.maps.modify o.fields fun m => m.insert key v := hx
    obtain ⟨i, hi⟩ := List.getElem?_of_mem hx
    rw [List.getElem?_modify] at hi
    cases hg : h.maps[i]? with
    | none => rw [hg] at hi; cases hi
    | some y =>
      rw [hg] at hi
      have hy := List.mem_of_getElem? hg
      split at hi
      · cases hi
        cases hp with
        | head => exact hv
        | tail _ hp => exact c.maps y hy p hp
      · cases hi; exact c.maps y hy p hp

theorem Sim.CleanHeap.setMethods (k : Nat) : ∀ {l : List (Nat × String × Fn)} {i : Nat} {h : Heap}, CleanHeap h → CleanHeap (Natives.setMethods k i l h)
  | [], _, _, c => c
  | (d, nm, _) :: l, i, h, c => by
    unfold Natives.setMethods
    split
    · exact CleanHeap.setMethods k (c.setMethod _ _ trivial)
    · exact CleanHeap.setMethods k c

theorem Sim.CleanHeap.newClass {h : Heap} (c : CleanHeap h) (name : String) : CleanHeap (Natives.newClass h name) where
  arrays := c.arrays
  maps := by
    intro x hx p hp
    rcases List.mem_append.1 (show x ∈ h.maps ++ [[]] from hx) with hx | hx
    · exact c.maps x hx p hp
    · rw [List.mem_singleton.1 hx] at hp; cases hp
  classes := by
    intro x hx p hp
    rcases List.mem_append.1 hx with hx | hx
    · exact c.classes x hx p hp
    · rw [List.mem_singleton.1 hx] at hp; cases hp

theorem Sim.CleanHeap.derive {h : Heap} (c : CleanHeap h) (k : Nat) (name : String) : CleanHeap (Natives.derive h k name) := by
  unfold Natives.derive
  split
  · rename_i y hy
    refine { arrays := c.arrays, maps := c.maps, classes := ?_ }
    intro x hx p hp
    rcases List.mem_append.1 hx with hx | hx
    · exact c.classes x hx p hp
    · rw [List.mem_singleton.1 hx] at hp
      exact c.classes y (List.mem_of_getElem? hy) p (List.mem_filter.1 hp).1
  · exact c

theorem Sim.CleanHeap.setClassField {h : Heap} (c : CleanHeap h) (k : Nat) (key : String) {v : Value} (hv : v.Plain) :
    CleanHeap (Natives.setClassField h k key v) := by
  unfold Natives.setClassField
  split
  · exact c.setField _ _ hv
  · exact c

theorem Sim.CleanHeap.empty : CleanHeap {} where
  maps := fun _ h => by cases h
  arrays := fun _ h => by cases h
  classes := fun _ h => by cases h

theorem Sim.CleanHeap.fold {α : Type} {f : Heap → α → Heap} (hf : ∀ h x, CleanHeap h → CleanHeap (f h x)) :
    ∀ (l : List α) {h : Heap}, CleanHeap h → CleanHeap (l.foldl f h)
  | [], _, c => c
  | x :: l, _, c => CleanHeap.fold hf l (hf _ x c)

theorem Sim.CleanHeap.register {h : Heap} (c : CleanHeap h) (constant : String → Float) (name : String) : CleanHeap (Natives.register constant h name) := by
  unfold Natives.register
  have := CleanHeap.setMethods h.classes.length (l := registered) (i := 0) (c.derive anyClass name)
  dsimp only
  split
  · exact CleanHeap.fold (fun _ _ c => c.setClassField _ _ (by exact trivial)) _ this
  · split
    · exact CleanHeap.fold (fun _ _ c => c.setClassField _ _ (by exact trivial)) _ this
    · exact this

theorem initialHeap_clean (constant : String → Float) : CleanHeap (Natives.initialHeap constant) := by
  unfold Natives.initialHeap
  exact CleanHeap.fold (fun _ _ c => c.register _ _) _ (CleanHeap.setMethods _ (CleanHeap.empty.newClass _))

/-- **C18.**  A new runtime is a place where a program can start. -/
theorem runtime_start (constant : String → Float) : Start (Natives.machine constant) := by
  have e1 : (Natives.machine constant).heap = Natives.initialHeap constant := by simp only [Natives.machine]
  have e2 : (Natives.machine constant).globals = ((("Any" :: derivedNames).zip (List.range 10)).map fun p => (p.1, Value.cls p.2)).reverse := by
    simp only [Natives.machine]
  have e3 : (Natives.machine constant).openUps = [] := by simp only [Natives.machine]
  have e4 : (Natives.machine constant).modules = [] := by simp only [Natives.machine]
  refine { heap := by rw [e1]; exact initialHeap_clean constant, globals := ?_, modules := by rw [e4]; simp, open_ := e3 }
  intro p hp
  rw [e2, List.mem_reverse, List.mem_map] at hp
  obtain ⟨q, -, rfl⟩ := hp
  trivial

section
variable {es : List Expr} {t : Option Expr} {bc : Bytecode} {src : Src.Sources} (lib : FloatLib) (loader : String → Except RtErr Bytecode) (fmod : Float → Float → Float)
  (checks debug : Bool) (constant : String → Float)

/-- **C18.**  In a new runtime, a script that the compiler accepts does what evaluating its syntax tree does, also where it
calls the native functions of the runtime's classes, unless the stack overflows. -/
theorem runtime_program_agrees_partial (hs : SourceRel (Natives.world lib loader fmod checks debug) src)
    (h : compile .script (.block es t) = .ok bc) (hf : Fits bc) (n : Nat) :
    Overflows (fun k => run (Natives.world lib loader fmod checks debug) k bc) (Natives.machine constant) ∨
      Agrees [] (fun k => run (Natives.world lib loader fmod checks debug) k bc) (Natives.machine constant) n
        (Src.program (Natives.world lib loader fmod checks debug) runtimeKnown src n (.block es t) (stateOf (Natives.machine constant))) :=
  compiled_program_agrees_partial (runtime_natives lib loader fmod checks debug) hs h hf (runtime_start constant).ready n

/-- The script is accepted, within the limits of the encoding, and the evaluator gives `v` in every new runtime. -/
def CoveredNew (source : String) (v : Value) : Prop :=
  ∃ es t bc, Parser.parseSource source = .ok (.block es t) ∧ compile .script (.block es t) = .ok bc ∧ Fits bc ∧
    ∀ lib loader fmod checks debug constant, ∃ σ,
      Src.program (Natives.world lib loader fmod checks debug) runtimeKnown (fun _ => none) 60 (.block es t) (stateOf (Natives.machine constant)) = (.ok v, σ)

theorem covered_new {source : String} {e : Expr} {v : Value} {es : List Expr} {t : Option Expr} (hp : Parser.parseSource source = .ok e)
    (hc : (match compile .script e with | .ok bc => fitsUpTo 9 bc | .error _ => false) = true)
    (h : ∀ lib loader fmod checks debug constant,
      (Src.program (Natives.world lib loader fmod checks debug) runtimeKnown (fun _ => none) 60 e (stateOf (Natives.machine constant))).1 = .ok v)
    (hb : e = .block es t := by rfl) : CoveredNew source v := by
  subst hb
  cases hb : compile .script (.block es t) with
  | error _ => rw [hb] at hc; cases hc
  | ok bc =>
    rw [hb] at hc
    exact ⟨es, t, bc, hp, hb, fitsUpTo_sound hc, fun _ _ _ _ _ _ => ⟨_, Prod.ext (h _ _ _ _ _ _) rfl⟩⟩

/-- A list that grows, and a loop over it. -/
example : CoveredNew "let a = [1, 2] a.push(5) let mut s = 0 for x in a { s += x } s + a.length()" (.int 11) :=
  covered_new
    (e := .block [.varDecl (.singular "a") false (.list [.int 1, .int 2]) none, .call (.field (.ident "a") "push") [.int 5],
      .varDecl (.singular "s") true (.int 0) none, .forLoop "x" (.ident "a") (.block [] (some (.assign .add (.ident "s")
      (.ident "x"))))] (some (.binary .add (.ident "s") (.call (.field (.ident "a") "length") []))))
    (by kernel_rfl) (by decide +kernel) (by intro _ _ _ checks debug _; cases checks <;> cases debug <;> kernel_rfl)

/-- A function of the program goes through a list and comes back as it was; a text is read as a number. -/
example : CoveredNew "let n = 3 let a = [] a.push(|x| x + n) let f = a.pop() f(4) + Int(\"35\")" (.int 42) :=
  covered_new
    (e := .block [.varDecl (.singular "n") false (.int 3) none, .varDecl (.singular "a") false (.list []) none,
      .call (.field (.ident "a") "push") [.anonFn [⟨"x", none⟩] none (.binary .add (.ident "x") (.ident "n"))],
      .varDecl (.singular "f") false (.call (.field (.ident "a") "pop") []) none] (some (.binary .add (.call (.ident "f")
      [.int 4]) (.call (.ident "Int") [.str "35"]))))
    (by kernel_rfl) (by decide +kernel) (by intro _ _ _ checks debug _; cases checks <;> cases debug <;> kernel_rfl)

/-- The class of an object, the text of a number, and an operator that is a native function. -/
example : CoveredNew "class C {} let c = C() let x = 7 c.class_of().name() + x.to_string()" (.str "C7") :=
  covered_new
    (e := .block [.classDecl "C" none [], .varDecl (.singular "c") false (.call (.ident "C") []) none,
      .varDecl (.singular "x") false (.int 7) none] (some (.binary .add (.call (.field (.call (.field (.ident "c")
      "class_of") []) "name") []) (.call (.field (.ident "x") "to_string") []))))
    (by kernel_rfl) (by decide +kernel) (by intro _ _ _ checks debug _; cases checks <;> cases debug <;> kernel_rfl)

end

end Dice
