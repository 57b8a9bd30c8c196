import Verif.NativeProps
import Verif.ObjectProps
import Verif.BalanceProps

/-! # C59: native functions keep the heap in order

What `Verif.Balance` and `Verif.ClassProps` assume about native functions holds of the built-in ones.
-/

namespace Dice

namespace Natives

/-! ## What native functions can do -/

/-- The heaps that a native function can leave behind. -/
inductive Effect (n : Nat) (args : List Value) (h : Heap) : Heap → Prop where
  | nothing : Effect n args h h
  | strings (names : List String) : Effect n args h (h.newArray (names.map .str)).2
  | array {xs : List Value} (hx : ∀ x ∈ xs, x ∈ args) : Effect n args h (h.newArray xs).2
  | push {a : Nat} {v : Value} (hv : v ∈ args) : Effect n args h (pushElement h a v)
  | pop (a : Nat) : Effect n args h (popElement h a)
  | iter (a : Nat) (obj : Obj) : Effect n args h
      ((((h.newArray [.array a, .int 0]).2.newObject anyClass).2).setField obj "next"
        (.fnNative (n + h.arrays.length)))

theorem run_effect (lib : FloatLib) (checks : Bool) (n : Nat) (f : Fn) (args : List Value) (h : Heap) :
    Effect n args h (f.run lib checks n args h).2 := by
  fun_cases Fn.run
  all_goals try exact .nothing
  · next he =>
    rw [show _ = _ from (congrArg Prod.snd he).symm]
    exact .strings _
  · next he =>
    rw [show _ = _ from (congrArg Prod.snd he).symm]
    exact .strings _
  · next he =>
    rw [show _ = _ from (congrArg Prod.snd he).symm]
    exact .array fun x hx => by simp [hx]
  · exact .push (by simp)
  · exact .pop _
  · next cell v1 h1 he1 o v2 h2 he2 obj ho =>
    cases he1
    cases he2
    exact .iter _ _
  · next v1 h1 he1 o v2 h2 he2 ho =>
    cases he2
    simp [o] at ho

/-- The heaps that the iterator of an array can leave behind. -/
inductive Step (cell : Nat) (h : Heap) : Heap → Prop where
  | nothing : Step cell h h
  | value {a : Nat} {i : Int} {x : Value} (obj : Obj) (hx : x ∈ elements h a) : Step cell h
      { ((h.newObject anyClass).2.setField obj "value" x).setField obj "is_done" (.bool false) with
        arrays := h.arrays.modify cell fun c => { c with elements := [.array a, .int (i + 1)] } }
  | done (obj : Obj) : Step cell h ((h.newObject anyClass).2.setField obj "is_done" (.bool true))

theorem next_step (cell : Nat) (h : Heap) : Step cell h (next cell h).2 := by
  unfold next
  split
  · next a i he =>
    dsimp only
    split
    · next ho => simp [Heap.newObject, Heap.newObj] at ho
    · next obj ho =>
      split
      · next x hx => exact .value obj (List.mem_of_getElem? hx)
      · exact .done obj
  · exact .nothing

seal intResult in
/-- No native function gives an error. -/
theorem native_no_error (lib : FloatLib) (checks : Bool) (i : Nat) (args : List Value) (h : Heap) (e : RtErr) :
    (native lib checks i args h).1 ≠ .err e := by
  unfold native
  split
  · next f _ =>
    intro he
    revert he
    fun_cases Fn.run <;> try (intro he; cases he; done)
    next i _ _ =>
      show intResult checks i.natAbs = .err e → False
      intro he
      unfold intResult at he
      split at he
      · cases he
      · split at he <;> cases he
  · unfold next
    split
    · dsimp only
      split
      · intro he; cases he
      · split <;> (intro he; cases he)
    · intro he; cases he

/-! ## Good functions -/

theorem modify_good {h : Heap} (g : GoodHeap h) (a : Nat) (f : Arr → Arr)
    (hf : ∀ arr ∈ h.arrays, ∀ v ∈ (f arr).elements, GoodValue v) :
    GoodHeap { h with arrays := h.arrays.modify a f } :=
  { g with
    arrays := fun arr ha => by
      rcases mem_modify ha with ha | ⟨y, hy, rfl⟩
      · exact g.arrays arr ha
      · exact hf y hy }

theorem elements_good {h : Heap} (g : GoodHeap h) {a : Nat} {v : Value} (hv : v ∈ elements h a) : GoodValue v := by
  unfold elements at hv
  cases ha : h.arrays[a]? with
  | none => rw [ha] at hv; simp at hv
  | some arr =>
    rw [ha] at hv
    exact g.arrays arr (List.mem_of_getElem? ha) v hv

theorem Effect.good {n : Nat} {args : List Value} {h h' : Heap} (e : Effect n args h h')
    (hargs : ∀ v ∈ args, GoodValue v) (g : GoodHeap h) : GoodHeap h' := by
  cases e with
  | nothing => exact g
  | strings names =>
    refine (newArray_good g fun v hv => ?_).1
    obtain ⟨s, -, rfl⟩ := List.mem_map.mp hv
    trivial
  | array hx => exact (newArray_good g fun v hv => hargs v (hx v hv)).1
  | push hv =>
    refine modify_good g _ _ fun arr ha v hv' => ?_
    rcases List.mem_append.mp hv' with hv' | hv'
    · exact g.arrays arr ha v hv'
    · rw [List.mem_singleton.mp hv']
      exact hargs _ hv
  | pop a =>
    exact modify_good g _ _ fun arr ha v hv' => g.arrays arr ha v (List.dropLast_subset _ hv')
  | iter a obj =>
    refine setField_good (newObject_good (newArray_good g fun v hv => ?_).1 _).1 _ _ trivial
    simp at hv
    rcases hv with rfl | rfl <;> trivial

theorem Step.good {cell : Nat} {h h' : Heap} (e : Step cell h h') (g : GoodHeap h) : GoodHeap h' := by
  cases e with
  | nothing => exact g
  | value obj hx =>
    refine modify_good (h := Heap.setField _ _ _ _)
      (setField_good (setField_good (newObject_good g _).1 _ _ (elements_good g hx)) _ _
        (v := .bool false) trivial) _ _
      fun arr ha v hv' => ?_
    simp at hv'
    rcases hv' with rfl | rfl <;> trivial
  | done obj => exact setField_good (newObject_good g _).1 _ _ trivial

theorem getD_map_good {α : Type} {f : α → Value} (o : Option α) (hf : ∀ x, GoodValue (f x)) :
    GoodValue ((o.map f).getD .null) := by
  cases o with
  | none => trivial
  | some x => exact hf x

seal intResult in
theorem run_value {lib : FloatLib} {checks : Bool} {n : Nat} {f : Fn} {args : List Value} {h : Heap} {v : Value}
    (hargs : ∀ v ∈ args, GoodValue v) (g : GoodHeap h) (hv : (f.run lib checks n args h).1 = .ok v) : GoodValue v := by
  revert hv
  fun_cases Fn.run <;> intro hv
  all_goals try (cases hv; simp only [GoodValue]; done)
  all_goals try (cases hv; exact getD_map_good _ fun _ => trivial)
  all_goals try (cases hv; done)
  · next he => cases hv; cases he; trivial
  · next he => cases hv; cases he; trivial
  · next he => cases hv; cases he; trivial
  · next a _ =>
    cases hv
    cases hl : (elements h a).getLast? with
    | none => trivial
    | some x => exact elements_good g (List.mem_of_getLast? hl)
  · next a =>
    cases hv
    cases hl : (elements h a).head? with
    | none => trivial
    | some x => exact elements_good g (List.mem_of_head? hl)
  · next he _ _ => cases hv; cases he; trivial
  · cases hv
    split
    · exact hargs _ (by simp)
    · trivial
  · next i _ =>
    have hv : intResult checks i.natAbs = .ok v := hv
    unfold intResult at hv
    split at hv
    · cases hv; trivial
    · split at hv <;> cases hv
      trivial

theorem next_value {cell : Nat} {h : Heap} {v : Value} (hv : (next cell h).1 = .ok v) : GoodValue v := by
  unfold next at hv
  split at hv
  · dsimp only at hv
    split at hv
    · cases hv
    · split at hv
      · cases hv
        simp [Heap.newObject, GoodValue]
      · cases hv
        simp [Heap.newObject, GoodValue]
  · cases hv

/-! ## Invariants of the heap -/

theorem modify_inv {h : Heap} (hi : HeapInv h) (a : Nat) (f : Arr → Arr) (hf : ∀ arr, (f arr).object = arr.object) :
    HeapInv { h with arrays := h.arrays.modify a f } := by
  refine hi.contents rfl rfl ?_ (fun c cl hc => ⟨cl, hc, rfl, rfl⟩) (fun c cl hc => ⟨cl, hc, rfl⟩)
  intro x
  cases x <;> try rfl
  rename_i d
  rw [fieldsOf_array, fieldsOf_array]
  show ((h.arrays.modify a f)[d]?).map _ = _
  rw [List.getElem?_modify]
  cases h.arrays[d]? with
  | none => rfl
  | some arr =>
    simp only [Option.map_eq_map, Option.map_some]
    split
    · rw [hf]
    · rfl

theorem modify_le (h : Heap) (a : Nat) (f : Arr → Arr) (hf : ∀ arr, (f arr).object = arr.object) :
    HeapLe h { h with arrays := h.arrays.modify a f } := by
  refine ⟨fun _ cl h => ⟨cl, h, rfl, rfl, rfl, rfl⟩, fun _ _ h => h, fun d arr hd => ?_⟩
  refine ⟨_, getElem?_modify_some.mpr ⟨arr, hd, rfl⟩, ?_⟩
  split
  · rw [hf]
  · rfl

theorem newArray_le (h : Heap) (xs : List Value) : HeapLe h (h.newArray xs).2 :=
  heapLe_append (cs := []) (os := []) (List.append_nil _).symm (List.append_nil _).symm rfl

theorem newObject_le (h : Heap) (c : Nat) : HeapLe h (h.newObject c).2 :=
  heapLe_append (cs := []) (as := []) (List.append_nil _).symm rfl (List.append_nil _).symm

theorem setField_le (h : Heap) (o : Obj) (k : String) (v : Value) : HeapLe h (h.setField o k v) :=
  ⟨fun _ cl h => ⟨cl, h, rfl, rfl, rfl, rfl⟩, fun _ _ h => h, fun _ a h => ⟨a, h, rfl⟩⟩

theorem Effect.inv {n : Nat} {args : List Value} {h h' : Heap} (e : Effect n args h h') (hi : HeapInv h) :
    HeapInv h' := by
  cases e with
  | nothing => exact hi
  | strings names => exact hi.newArray _
  | array hx => exact hi.newArray _
  | push hv => exact modify_inv hi _ _ fun _ => rfl
  | pop a => exact modify_inv hi _ _ fun _ => rfl
  | iter a obj => exact ((hi.newArray _).newObject _).setField _ _ _

theorem Effect.le {n : Nat} {args : List Value} {h h' : Heap} (e : Effect n args h h') : HeapLe h h' := by
  cases e with
  | nothing => exact .refl h
  | strings names => exact newArray_le h _
  | array hx => exact newArray_le h _
  | push hv => exact modify_le h _ _ fun _ => rfl
  | pop a => exact modify_le h _ _ fun _ => rfl
  | iter a obj => exact ((newArray_le h _).trans (newObject_le _ _)).trans (setField_le _ _ _ _)

theorem Step.inv {cell : Nat} {h h' : Heap} (e : Step cell h h') (hi : HeapInv h) : HeapInv h' := by
  cases e with
  | nothing => exact hi
  | value obj hx =>
    exact modify_inv (h := Heap.setField _ _ _ _) (((hi.newObject _).setField _ _ _).setField _ _ _) _ _ fun _ => rfl
  | done obj => exact (hi.newObject _).setField _ _ _

theorem Step.le {cell : Nat} {h h' : Heap} (e : Step cell h h') : HeapLe h h' := by
  cases e with
  | nothing => exact .refl h
  | value obj hx =>
    exact (((newObject_le h _).trans (setField_le _ _ _ _)).trans (setField_le _ _ _ _)).trans
      (modify_le (Heap.setField _ _ _ _) _ _ fun _ => rfl)
  | done obj => exact (newObject_le h _).trans (setField_le _ _ _ _)

/-! ## The set-up of the runtime -/

/-- Both invariants, for the set-up. -/
structure Sound (h : Heap) : Prop where
  good : GoodHeap h
  inv : HeapInv h

theorem newClass_sound {h : Heap} (s : Sound h) (name : String) : Sound (newClass h name) :=
  ⟨{ newObj_good s.good none with
      methods := fun c hc => by
        rcases List.mem_append.1 hc with hc | hc
        · exact s.good.methods c hc
        · rw [List.mem_singleton.1 hc]
          intro k v hv
          cases hv }, s.inv.newRootClass name⟩

theorem derive_sound {h : Heap} (s : Sound h) (base : Nat) (name : String) : Sound (derive h base name) := by
  unfold derive
  split
  · next b hb => exact ⟨classWithBase_good s.good name base (List.mem_of_getElem? hb), s.inv.derive name hb⟩
  · exact s

theorem setMethods_sound (c : Nat) (rs : List (Nat × String × Fn)) : ∀ i h, Sound h → Sound (setMethods c i rs h) := by
  induction rs with
  | nil => exact fun i h s => s
  | cons r rs ih =>
    intro i h s
    obtain ⟨d, name, f⟩ := r
    refine ih _ _ ?_
    split
    · exact ⟨setMethod_good s.good c name trivial, s.inv.setMethod c name _⟩
    · exact s

theorem setClassField_sound {h : Heap} (s : Sound h) (c : Nat) (k : String) {v : Value} (hv : GoodValue v) :
    Sound (setClassField h c k v) := by
  unfold setClassField
  split
  · exact ⟨setField_good s.good _ k hv, s.inv.setField _ k v⟩
  · exact s

theorem foldl_sound {α : Type} {f : Heap → α → Heap} (hf : ∀ h a, Sound h → Sound (f h a)) (xs : List α) :
    ∀ h, Sound h → Sound (xs.foldl f h) := by
  induction xs with
  | nil => exact fun h s => s
  | cons x xs ih => exact fun h s => ih _ (hf h x s)

theorem register_sound (constant : String → Float) (h : Heap) (name : String) (s : Sound h) :
    Sound (register constant h name) := by
  unfold register
  have s' := setMethods_sound h.classes.length registered 0 _ (derive_sound s anyClass name)
  dsimp only
  split
  · exact foldl_sound (fun h k s => setClassField_sound s _ k (v := .float _) trivial) _ _ s'
  · split
    · exact foldl_sound (fun h k s => setClassField_sound s _ _ (v := .int _) trivial) _ _ s'
    · exact s'

theorem initialHeap_sound (constant : String → Float) : Sound (initialHeap constant) := by
  refine foldl_sound (register_sound constant) _ _ (setMethods_sound _ _ _ _ (newClass_sound ⟨⟨?_, ?_, ?_⟩, .empty⟩ _))
  · exact fun _ h => nomatch h
  · exact fun _ h => nomatch h
  · exact fun _ h => nomatch h

end Natives

open Natives

variable {lib : FloatLib} {loader : String → Except RtErr Bytecode} {fmod : Float → Float → Float}
  {checks debug : Bool}

/-- **C59**: the built-in functions respect the identity of objects, arrays and classes, and the class
hierarchy, so the theorems about classes and fields hold of every program in the runtime. -/
theorem natives_keep_heap : NativesOk (Natives.world lib loader fmod checks debug) where
  inv := fun i args h hi => by
    show HeapInv (native lib checks i args h).2
    unfold native
    split
    · exact (run_effect ..).inv hi
    · exact (next_step ..).inv hi
  le := fun i args h => by
    show HeapLe h (native lib checks i args h).2
    unfold native
    split
    · exact (run_effect ..).le
    · exact (next_step ..).le

/-- **C59**: the built-in functions bring no function into the runtime that does not follow the stack
discipline. -/
theorem natives_good (hl : ∀ name bc, loader name = .ok bc → GoodCode bc ∧ 0 < bc.slotCount) :
    GoodWorld (Natives.world lib loader fmod checks debug) where
  native := fun i args h hargs g => by
    show GoodHeap (native lib checks i args h).2 ∧ ∀ v, (native lib checks i args h).1 = .ok v → GoodValue v
    unfold native
    split
    · exact ⟨(run_effect ..).good hargs g, fun v => run_value hargs g⟩
    · exact ⟨(next_step ..).good g, fun v => next_value⟩
  loader := hl

/-- **C59**: a new runtime meets what the theorems assume about the machine. -/
theorem runtime_good (constant : String → Float) :
    GoodVM (Natives.machine constant) ∧ HeapInv (Natives.machine constant).heap := by
  have hs := initialHeap_sound constant
  unfold Natives.machine
  generalize initialHeap constant = h at hs
  refine ⟨?_, hs.inv⟩
  refine { mem := fun _ => trivial, heap := hs.good, cells := ?_, globals := ?_, modules := ?_, clean := fun _ _ => .inl rfl }
  · exact fun _ h => nomatch h
  · intro k v hm
    obtain ⟨p, -, hp⟩ := List.mem_map.mp (List.mem_reverse.mp hm)
    cases hp
    trivial
  · exact fun _ _ h => nomatch h

/-- **C59**: no built-in function gives an error. -/
theorem natives_never_fail (i : Nat) (args : List Value) (h : Heap) (e : RtErr) :
    ((Natives.world lib loader fmod checks debug).native i args h).1 ≠ .err e :=
  native_no_error lib checks i args h e

end Dice
