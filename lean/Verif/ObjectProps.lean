import Verif.ClassProps

/-!
# C35, C36, C47: fields, elements, members and operators
-/

namespace Dice

/-! ## C35: fields -/

/-- Writing a field of the object at address `o`, as `STORE_FIELD` does. -/
def Heap.writeField (h : Heap) (o : Nat) (key : String) (v : Value) : Heap :=
  match h.objects[o]? with
  | some ob => h.setField ob key v
  | none => h

/-- The fields of all objects, as mathematics. -/
def FieldSpec := Nat → String → Option Value

def FieldSpec.write (s : FieldSpec) (o : Nat) (key : String) (v : Value) : FieldSpec :=
  fun o' k => if o' = o ∧ k = key then some v else s o' k

def Heap.fieldSpec (h : Heap) : FieldSpec := fun o k => h.ownField k (.object o)

theorem writeField_refines {h : Heap} (hi : HeapInv h) {o : Nat} (ho : o < h.objects.length) (key : String)
    (v : Value) : (h.writeField o key v).fieldSpec = h.fieldSpec.write o key v := by
  funext o' k
  have hob := List.getElem?_eq_some_iff.mpr ⟨ho, rfl⟩
  unfold Heap.writeField Heap.fieldSpec FieldSpec.write
  rw [hob]
  dsimp only
  unfold Heap.ownField
  show (match h.objects[o']? with
    | some ob => (h.setField h.objects[o] key v).field ob k
    | none => none) = if o' = o ∧ k = key then some v else
      match h.objects[o']? with | some ob => h.field ob k | none => none
  cases ho' : h.objects[o']? with
  | none =>
    rw [if_neg]
    rintro ⟨rfl, -⟩
    rw [hob] at ho'
    exact nomatch ho'
  | some ob =>
    show ((h.maps.modify h.objects[o].fields _)[ob.fields]?).bind _ = _
    rw [List.getElem?_modify]
    unfold Heap.field
    by_cases he : o' = o
    · subst he
      have : ob = h.objects[o'] := Option.some.inj (ho'.symm.trans hob)
      subst this
      have hb := hi.bound (.object o') h.objects[o'].fields (by rw [fieldsOf_object, hob]; rfl)
      rw [List.getElem?_eq_some_iff.mpr ⟨hb, rfl⟩]
      simp only [↓reduceIte, Option.map_eq_map, Option.map_some, Option.bind_some, true_and]
      rw [ValueMap.get_insert, List.getElem?_eq_some_iff.mpr ⟨hb, rfl⟩]
      rfl
    · have hne : h.objects[o].fields ≠ ob.fields := by
        intro e
        rcases hi.inj (.object o) (.object o') h.objects[o].fields (by rw [fieldsOf_object, hob]; rfl)
            (by rw [fieldsOf_object, ho', e]; rfl) with e' | ⟨c, _, _, _, e', _⟩
        · injection e' with e'
          exact he e'.symm
        · exact nomatch e'
      rw [if_neg (by rintro ⟨h1, -⟩; exact he h1)]
      simp only [if_neg hne]
      cases h.maps[ob.fields]? <;> rfl

theorem writeField_objects (h : Heap) (o : Nat) (key : String) (v : Value) :
    (h.writeField o key v).objects = h.objects := by
  unfold Heap.writeField
  split <;> rfl

theorem HeapInv.writeField {h : Heap} (hi : HeapInv h) (o : Nat) (key : String) (v : Value) :
    HeapInv (h.writeField o key v) := by
  unfold Heap.writeField
  split
  · exact hi.setField _ _ _
  · exact hi

/-- **C35**: after any sequence of writes to fields of objects, every field of every object has the value
last written to it, or the one it had before. -/
theorem field_writes_refine {h : Heap} (hi : HeapInv h) (ws : List (Nat × String × Value))
    (hw : ∀ x ∈ ws, x.1 < h.objects.length) :
    (ws.foldl (fun h x => h.writeField x.1 x.2.1 x.2.2) h).fieldSpec =
      ws.foldl (fun s x => s.write x.1 x.2.1 x.2.2) h.fieldSpec := by
  induction ws generalizing h with
  | nil => rfl
  | cons x rest ih =>
    rw [List.foldl_cons, List.foldl_cons, ih (hi.writeField _ _ _), writeField_refines hi (hw x (List.mem_cons_self ..))]
    intro y hy
    rw [writeField_objects]
    exact hw y (List.mem_cons_of_mem _ hy)

example :
    let h := (({} : Heap).newObject 0).2.newObject 0 |>.2
    let h' := [(0, "x", Value.int 1), (1, "x", .int 2), (0, "x", .int 3)].foldl
      (fun h x => h.writeField x.1 x.2.1 x.2.2) h
    h'.ownField "x" (.object 0) = some (.int 3) ∧ h'.ownField "x" (.object 1) = some (.int 2) ∧
      h'.ownField "y" (.object 0) = none := ⟨rfl, rfl, rfl⟩

/-- **C35**: writing fields of objects changes no field of an array or class and no element. -/
theorem writeField_others {h : Heap} (hi : HeapInv h) (o : Nat) (key : String) (v : Value) {u : Value}
    (hu : ∀ o', u ≠ .object o') (k : String) :
    (h.writeField o key v).ownField k u = h.ownField k u ∧ (h.writeField o key v).arrays = h.arrays := by
  unfold Heap.writeField
  cases hob : h.objects[o]? with
  | none => exact ⟨rfl, rfl⟩
  | some ob =>
    refine ⟨?_, rfl⟩
    unfold Heap.ownField
    show (match h.asObject u with | some o => (h.setField ob key v).field o k | none => none) = _
    cases ha : h.asObject u with
    | none => rfl
    | some ou =>
      have hne : ob.fields ≠ ou.fields := by
        intro e
        rcases hi.inj (.object o) u ob.fields (by rw [fieldsOf_object, hob]; rfl)
            (by unfold Heap.fieldsOf; rw [ha, e]; rfl) with e' | ⟨c, _, _, _, e', _⟩
        · exact hu o e'.symm
        · exact nomatch e'
      show ((h.maps.modify ob.fields _)[ou.fields]?).bind _ = _
      rw [List.getElem?_modify]
      simp only [if_neg hne]
      unfold Heap.field
      cases h.maps[ou.fields]? <;> rfl

/-- **C35** for the instructions: `STORE_FIELD` on an object performs the write and leaves the value. -/
theorem storeField_writes (w : World) (k : Calls) (bc : Bytecode) (f : Frame) (ups : Option (List Nat))
    (pos : Nat) {m : VM} {p o : Nat} {v : Value} {key : String} (ht : Top2 m p (.object o) v)
    (ho : o < m.heap.objects.length) (hs : symbolOperand bc pos m = (.ok key, m)) :
    step w k bc f ups .storeField pos m = (.ok (.goto (pos + 1)),
      { m.replace2 p v with heap := m.heap.writeField o key v }) := by
  have hb := ht.bound
  have hob := List.getElem?_eq_some_iff.mpr ⟨ho, rfl⟩
  unfold step
  dsimp only
  rw [bind_ok hs, bind_ok (pop_eval (p := p + 1) ht.ptr (by omega)), ht.rhs]
  rw [bind_ok (pop_eval (p := p) rfl (by omega))]
  dsimp only
  rw [upd_other (by omega), ht.lhs]
  have ha : ∀ m' : VM, m'.heap = m.heap → asObject (.object o) m' = (.ok m.heap.objects[o], m') := by
    intro m' he
    unfold asObject
    rw [he]
    show (match m.heap.objects[o]? with | some o => _ | none => _) = _
    rw [hob]
  rw [bind_ok (ha _ (by rfl))]
  have hset : ∀ m' : VM, onHeap (fun h => ((), h.setField m.heap.objects[o] key v)) m' =
      (.ok (), { m' with heap := m'.heap.setField m.heap.objects[o] key v }) := fun _ => rfl
  rw [bind_ok (hset _), bind_ok (push_eval _ (by show p < maxStack; omega))]
  dsimp only [VM.replace2, Heap.writeField]
  rw [hob, upd_upd]
  rfl

/-- **C35**: `ASSIGN_FIELD` performs the write and leaves unit. -/
theorem assignField_writes (w : World) (k : Calls) (bc : Bytecode) (f : Frame) (ups : Option (List Nat))
    (pos : Nat) {m : VM} {p o : Nat} {v : Value} {key : String} (ht : Top2 m p (.object o) v)
    (ho : o < m.heap.objects.length) (hs : symbolOperand bc pos m = (.ok key, m)) :
    step w k bc f ups .assignField pos m = (.ok (.goto (pos + 1)),
      { m.replace2 p .unit with heap := m.heap.writeField o key v }) := by
  have hb := ht.bound
  have hob := List.getElem?_eq_some_iff.mpr ⟨ho, rfl⟩
  unfold step
  dsimp only
  rw [bind_ok hs, bind_ok (pop_eval (p := p + 1) ht.ptr (by omega)), ht.rhs]
  rw [bind_ok (pop_eval (p := p) rfl (by omega))]
  dsimp only
  rw [upd_other (by omega), ht.lhs]
  have ha : ∀ m' : VM, m'.heap = m.heap → asObject (.object o) m' = (.ok m.heap.objects[o], m') := by
    intro m' he
    unfold asObject
    rw [he]
    show (match m.heap.objects[o]? with | some o => _ | none => _) = _
    rw [hob]
  rw [bind_ok (ha _ (by rfl))]
  have hset : ∀ m' : VM, onHeap (fun h => ((), h.setField m.heap.objects[o] key v)) m' =
      (.ok (), { m' with heap := m'.heap.setField m.heap.objects[o] key v }) := fun _ => rfl
  rw [bind_ok (hset _), bind_ok (push_eval _ (by show p < maxStack; omega))]
  dsimp only [VM.replace2, Heap.writeField]
  rw [hob, upd_upd]
  rfl

/-! ## C35: elements -/

/-- The elements of all arrays, as mathematics: inside its length, an array is a function of the index. -/
def Heap.element (h : Heap) (a : Nat) (i : Int) : Value :=
  match h.arrays[a]? with
  | some arr => if 0 ≤ i then (arr.elements[i.toNat]?).getD .null else .null
  | none => .null

def Heap.length (h : Heap) (a : Nat) : Nat :=
  match h.arrays[a]? with
  | some arr => arr.elements.length
  | none => 0

/-- **C35**: reading an element, at any index; outside the bounds the result is null and nothing else
happens. -/
theorem getIndex_array (w : World) {m : VM} {a : Nat} (i : Int) (ha : a < m.heap.arrays.length) :
    getIndex w (.array a) (.int i) m = (.ok (m.heap.element a i), m) ∧
    ((i < 0 ∨ m.heap.length a ≤ i) → m.heap.element a i = .null) := by
  have harr := List.getElem?_eq_some_iff.mpr ⟨ha, rfl⟩
  constructor
  · unfold getIndex Heap.element
    dsimp only
    rw [harr]
  · intro h
    unfold Heap.element
    unfold Heap.length at h
    rw [harr] at h ⊢
    dsimp only at h ⊢
    split
    · rw [List.getElem?_eq_none (by omega)]
      rfl
    · rfl

/-- **C35**: writing an element inside the bounds: that element has the new value, every other element of
every array and every field is as before; lengths do not change. -/
theorem putIndex_array {m : VM} {a : Nat} {i : Int} (v : Value) (hi : 0 ≤ i) (hl : i < m.heap.length a) :
    ∃ h', putIndex (.array a) (.int i) v m = (.ok (), { m with heap := h' }) ∧
      (∀ b j, h'.element b j = if b = a ∧ j = i then v else m.heap.element b j) ∧
      (∀ b, h'.length b = m.heap.length b) ∧ (∀ k u, h'.ownField k u = m.heap.ownField k u) := by
  have : ∃ arr, m.heap.arrays[a]? = some arr ∧ i < arr.elements.length := by
    unfold Heap.length at hl
    cases h : m.heap.arrays[a]? with
    | none => rw [h] at hl; dsimp only at hl; omega
    | some arr => rw [h] at hl; exact ⟨arr, rfl, hl⟩
  obtain ⟨arr, harr, hlt⟩ := this
  have halt := (List.getElem?_eq_some_iff.mp harr).1
  let h' : Heap := { m.heap with
    arrays := m.heap.arrays.set a { arr with elements := arr.elements.set i.toNat v } }
  have hget : ∀ b : Nat, h'.arrays[b]? =
      if a = b then some { arr with elements := arr.elements.set i.toNat v } else m.heap.arrays[b]? := by
    intro b
    show (m.heap.arrays.set a _)[b]? = _
    rw [List.getElem?_set, if_pos halt]
  refine ⟨h', ?_, ?_, ?_, ?_⟩
  · unfold putIndex
    dsimp only
    rw [harr]
    dsimp only
    rw [if_pos ⟨hi, by omega⟩]
  · intro b j
    unfold Heap.element
    rw [hget]
    by_cases hb : a = b
    · subst hb
      rw [if_pos rfl, harr]
      dsimp only
      by_cases hj : j = i
      · rw [hj, if_pos hi, if_pos ⟨rfl, rfl⟩, List.getElem?_set_self (by omega)]
        rfl
      · rw [if_neg (c := a = a ∧ j = i) (fun h => hj h.2)]
        split
        · rw [List.getElem?_set_ne (by omega)]
        · rfl
    · rw [if_neg hb, if_neg (by rintro ⟨h, -⟩; exact hb h.symm)]
  · intro b
    unfold Heap.length
    rw [hget]
    by_cases hb : a = b
    · subst hb
      rw [if_pos rfl, harr]
      dsimp only
      rw [List.length_set]
    · rw [if_neg hb]
  · intro k u
    unfold Heap.ownField
    have : h'.asObject u = m.heap.asObject u := by
      cases u <;> try rfl
      rename_i b
      show (h'.arrays[b]?).map _ = (m.heap.arrays[b]?).map _
      rw [hget]
      split
      · rename_i e
        subst e
        rw [harr]
        rfl
      · rfl
    rw [this]
    rfl

/-- Writing outside the bounds of an array aborts the process (a finding: reading there is harmless). -/
theorem putIndex_outside {m : VM} {a : Nat} {i : Int} (v : Value) (ha : a < m.heap.arrays.length)
    (h : i < 0 ∨ m.heap.length a ≤ i) :
    (putIndex (.array a) (.int i) v m).1 = .panic "index out of bounds" := by
  have harr := List.getElem?_eq_some_iff.mpr ⟨ha, rfl⟩
  unfold putIndex
  unfold Heap.length at h
  rw [harr] at h
  dsimp only at h ⊢
  rw [harr]
  dsimp only
  rw [if_neg (by omega)]

/-- The elements of a new array are the top `n` values of the stack, the oldest first; existing arrays and
fields are not touched. -/
theorem createArray_elements (w : World) (k : Calls) (bc : Bytecode) (f : Frame) (ups : Option (List Nat))
    (pos : Nat) {m : VM} {n p : Nat} (hn : operand bc pos m = (.ok n, m)) (hp : m.ptr = p + n)
    (hb : p + n ≤ maxStack) (hs : p < maxStack) :
    ∃ m', step w k bc f ups .createArray pos m = (.ok (.goto (pos + 1)), m') ∧ m'.ptr = p + 1 ∧
      m'.mem p = .array m.heap.arrays.length ∧ (∀ j, j < p → m'.mem j = m.mem j) ∧
      m'.heap.length m.heap.arrays.length = n ∧
      (∀ i : Nat, i < n → m'.heap.element m.heap.arrays.length i = m.mem (p + i)) ∧
      (∀ b j, b < m.heap.arrays.length → m'.heap.element b j = m.heap.element b j) := by
  have hpc : popCount n m = (.ok (memRange m.mem p n), { m with mem := memClear m.mem p m.ptr, ptr := p }) := by
    unfold popCount
    rw [if_pos ⟨by omega, by omega⟩]
    have : m.ptr - n = p := by omega
    rw [this]
  let h' := (m.heap.newArray (memRange m.mem p n)).2
  let m' : VM := { m with
    mem := upd (memClear m.mem p m.ptr) p (.array m.heap.arrays.length), ptr := p + 1, heap := h' }
  have harr : h'.arrays = m.heap.arrays ++ [Arr.mk (memRange m.mem p n) (Obj.mk none m.heap.maps.length)] := rfl
  refine ⟨m', ?_, rfl, ?_, ?_, ?_, ?_, ?_⟩
  · unfold step
    dsimp only
    rw [bind_ok hn, bind_ok hpc]
    have hnew : ∀ m1 : VM, m1.heap = m.heap → onHeap (fun h => h.newArray (memRange m.mem p n)) m1 =
        (.ok (.array m.heap.arrays.length), { m1 with heap := h' }) := by
      intro m1 he
      unfold onHeap
      rw [he]
      rfl
    rw [bind_ok (hnew _ (by rfl)), bind_ok (push_eval _ hs)]
    rfl
  · exact upd_same _ _ _
  · intro j hj
    show upd (memClear m.mem p m.ptr) p _ j = _
    rw [upd_other (by omega)]
    unfold memClear
    rw [if_neg (by omega)]
  · unfold Heap.length
    show (match h'.arrays[m.heap.arrays.length]? with | some arr => _ | none => 0) = n
    rw [harr, List.getElem?_concat_length]
    simp [memRange]
  · intro i hi
    unfold Heap.element
    show (match h'.arrays[m.heap.arrays.length]? with | some arr => _ | none => Value.null) = _
    rw [harr, List.getElem?_concat_length]
    dsimp only
    rw [if_pos (by omega)]
    simp [memRange, hi]
  · intro b j hb'
    unfold Heap.element
    show (match h'.arrays[b]? with | some arr => _ | none => Value.null) = _
    rw [harr, List.getElem?_append_left hb']

example : ∃ m' : VM, ∃ h : Heap, putIndex (.array 0) (.int 1) (.int 7)
    { heap := (({} : Heap).newArray [.int 5, .int 6]).2 } = (.ok (), m') ∧ h = m'.heap ∧
    h.element 0 1 = .int 7 ∧ h.element 0 0 = .int 5 := ⟨_, _, rfl, rfl, rfl, rfl⟩

/-! ## C36 -/

/-- What the member `key` of `v` is. -/
inductive Member (w : World) (h : Heap) (v : Value) (key : String) : Value → Prop where
  | field {f : Value} (own : h.ownField key v = some f) : Member w h v key f
  | method {f : Value} {c : Nat} (own : h.ownField key v = none) (hk : key ≠ "new")
      (hc : h.classOf w v = some c) (hm : h.method c key = some f) : Member w h v key (.fnBound v f)
  | missing (own : h.ownField key v = none) (hk : key ≠ "new")
      (hm : ∀ c, h.classOf w v = some c → h.method c key = none) : Member w h v key .null

theorem member_total (w : World) (h : Heap) (v : Value) {key : String} (hk : key ≠ "new") :
    ∃ r, Member w h v key r := by
  cases ho : h.ownField key v with
  | some f => exact ⟨f, .field ho⟩
  | none =>
    cases hc : h.classOf w v with
    | none => exact ⟨_, .missing ho hk (by rw [hc]; exact fun _ e => nomatch e)⟩
    | some c =>
      cases hm : h.method c key with
      | some f => exact ⟨_, .method ho hk hc hm⟩
      | none =>
        refine ⟨_, .missing ho hk ?_⟩
        intro d hd
        rw [hc] at hd
        cases hd
        exact hm

theorem getField_member {w : World} {m : VM} {v r : Value} {key : String} (h : Member w m.heap v key r) :
    getField w key v m = (.ok r, m) := by
  unfold getField
  cases h with
  | field own => rw [own]
  | method own hk hc hm =>
    rw [own]
    dsimp only
    rw [if_neg hk, hc]
    unfold getMethod
    rw [Option.bind_some, hm]
  | missing own hk hm =>
    rw [own]
    dsimp only
    rw [if_neg hk]
    unfold getMethod
    cases hc : m.heap.classOf w v with
    | none => rfl
    | some c =>
      rw [Option.bind_some, hm c hc]

/-- **C36**: the instruction `LOAD_FIELD` replaces the object on the stack by its member: its own field, else
the method of its class bound to it, else null. -/
theorem loadField_member (w : World) (k : Calls) (bc : Bytecode) (f : Frame) (ups : Option (List Nat))
    (pos : Nat) {m : VM} {p : Nat} {r : Value} {key : String} (hp : m.ptr = p + 1) (hb : p < maxStack)
    (hs : symbolOperand bc pos m = (.ok key, m)) (hr : Member w m.heap (m.mem p) key r) :
    step w k bc f ups .loadField pos m = (.ok (.goto (pos + 1)), { m with mem := upd m.mem p r }) := by
  unfold step
  dsimp only
  rw [bind_ok hs, bind_ok (pop_eval hp hb)]
  have hg : getField w key (m.mem p) { m with mem := upd m.mem p .null, ptr := p } = (.ok r, _) :=
    getField_member hr
  rw [bind_ok hg, bind_ok (push_eval _ hb)]
  dsimp only
  rw [upd_upd, ← hp]
  rfl

/-- The constructor cannot be accessed as a member, except through an own field of that name. -/
theorem getField_new {w : World} {m : VM} {v : Value} (h : m.heap.ownField "new" v = none) :
    getField w "new" v m = (.err .newAccess, m) := by
  unfold getField
  rw [h]
  rfl

/-- The code and captured cells of a function that has code. -/
def scriptOf : Value → Option (Bytecode × Option (List Nat))
  | .fnScript bc _ _ => some (bc, none)
  | .fnClosure bc _ _ us => some (bc, some us)
  | _ => none

/-- A function, bound to a receiver or not. -/
def bindTo (receiver : Option Value) (f : Value) : Value :=
  match receiver with
  | some r => .fnBound r f
  | none => f

/-- Slot zero of a frame starting at `p`: the receiver if there is one, else what is there. -/
def enterMem (receiver : Option Value) (mem : Nat → Value) (p : Nat) : Nat → Value :=
  match receiver with
  | some r => upd mem p r
  | none => mem

/-- The number of slots reserved on a call with `argc` arguments. -/
def reservedFor (bc : Bytecode) (argc : Nat) : Nat :=
  if argc < bc.slotCount then bc.slotCount - argc else bc.slotCount

/-- **C36**, **C24**: entering a function.  Calling a script function or closure, bound or not, with `argc`
arguments runs its code in a frame whose slot zero is at the position of the callee and whose slots
`1 … argc` are the arguments in order; a bound function finds the receiver in slot zero.  Nothing else is
changed before the code runs. -/
theorem call_enter (w : World) (n : Nat) {m : VM} {p argc : Nat} {bc : Bytecode} {ups : Option (List Nat)}
    {fn : Value} {receiver : Option Value} (hs : scriptOf fn = some (bc, ups))
    (hp : m.ptr = p + argc + 1) (hb : m.ptr + bc.slotCount < maxStack)
    (ht : m.mem p = bindTo receiver fn) :
    callFn w (n + 2) argc m =
      ((execute w n bc { start := p, stop := m.ptr + reservedFor bc argc } ups >>= fun result =>
          releaseFrame w { start := p, stop := m.ptr + reservedFor bc argc } >>= fun _ => pure result) >>= push)
        { m with ptr := m.ptr + reservedFor bc argc, mem := enterMem receiver m.mem p } := by
  have hres : reservedFor bc argc ≤ bc.slotCount := by
    unfold reservedFor
    split <;> omega
  have hpl : p < maxStack := by omega
  have key : callScript w (n + 1) argc receiver bc ups m =
      (execute w n bc { start := p, stop := m.ptr + reservedFor bc argc } ups >>= fun result =>
        releaseFrame w { start := p, stop := m.ptr + reservedFor bc argc } >>= fun _ => pure result)
        { m with ptr := m.ptr + reservedFor bc argc, mem := enterMem receiver m.mem p } := by
    rw [callScript]
    have hr : reserveSlots w (reservedFor bc argc) m =
        (.ok { start := m.ptr, stop := m.ptr + reservedFor bc argc },
          { m with ptr := m.ptr + reservedFor bc argc }) := by
      unfold reserveSlots
      dsimp only
      rw [if_neg (by rintro ⟨-, h⟩; exact h (by omega))]
    show (reserveSlots w (reservedFor bc argc) >>= _) m = _
    rw [bind_ok hr]
    rw [if_neg (by show ¬ m.ptr < argc + 1; omega)]
    have hf : m.ptr - (argc + 1) = p := by omega
    dsimp only
    rw [hf]
    have hset : setReceiver { start := p, stop := m.ptr + reservedFor bc argc } receiver
        { m with ptr := m.ptr + reservedFor bc argc } =
        (.ok (), { m with ptr := m.ptr + reservedFor bc argc, mem := enterMem receiver m.mem p }) := by
      cases receiver with
      | none => rfl
      | some r =>
        show frameSet _ 0 r _ = _
        unfold frameSet
        rw [if_pos ⟨by show m.ptr + _ ≤ _; omega, by show p + 0 < m.ptr + _; omega⟩]
        rfl
    rw [bind_ok hset]
  have htarget : (match callTarget (m.mem p) with
      | (.fnClosure bc _ _ us, receiver) => callScript w (n + 1) argc receiver bc (some us)
      | (.fnScript bc _ _, receiver) => callScript w (n + 1) argc receiver bc none
      | (.cls c, _) => do
        let o ← onHeap fun h => h.newObject c
        callCtor w (n + 1) argc c o
      | (.fnNative i, receiver) => callNative w argc receiver i
      | _ => V.err .assertFunction) = callScript w (n + 1) argc receiver bc ups := by
    rw [ht]
    cases fn <;> simp only [scriptOf, reduceCtorEq] at hs
    all_goals
      cases hs
      cases receiver <;> rfl
  rw [callFn]
  rw [bind_ok (peek_eval (i := argc) (p := p) hp hpl)]
  refine (congrFun (congrArg (fun x => V.bind x push) htarget) m).trans ?_
  show V.bind _ _ m = V.bind _ _ _
  unfold V.bind
  rw [key]

/-- **C36**: the code of a bound method starts with the receiver in slot zero and the arguments in the slots
after it. -/
theorem enterMem_slots (receiver : Value) (mem : Nat → Value) (p : Nat) :
    enterMem (some receiver) mem p p = receiver ∧
    ∀ i, 0 < i → enterMem (some receiver) mem p (p + i) = mem (p + i) :=
  ⟨upd_same _ _ _, fun i hi => upd_other (by omega)⟩

/-- What a native function is given: the receiver, or the function itself when it is not bound, and then the
arguments in order. -/
def nativeArgs (receiver : Option Value) (mem : Nat → Value) (p argc : Nat) : List Value :=
  receiver.getD (mem p) :: (List.range argc).map fun i => mem (p + 1 + i)

theorem memRange_cons (mem : Nat → Value) (p n : Nat) :
    memRange mem p (n + 1) = mem p :: (List.range n).map fun i => mem (p + 1 + i) := by
  unfold memRange
  rw [List.range_succ_eq_map]
  simp only [List.map_cons, List.map_map, Nat.add_zero]
  congr 1
  apply List.map_congr_left
  intro i _
  show mem (p + (i + 1)) = _
  congr 1
  omega

/-- **C36**: calling a native function, bound or not, hands it the receiver first and then the arguments in
order, and leaves its result in place of the callee and the arguments. -/
theorem call_native (w : World) (n : Nat) {m : VM} {p argc i : Nat} {receiver : Option Value} {v : Value}
    {h' : Heap} (hp : m.ptr = p + argc + 1) (hb : m.ptr ≤ maxStack)
    (ht : m.mem p = bindTo receiver (.fnNative i))
    (hn : w.native i (nativeArgs receiver m.mem p argc) m.heap = (.ok v, h')) :
    callFn w (n + 1) argc m =
      (.ok (), { m with heap := h', ptr := p + 1, mem := upd (memClear m.mem p m.ptr) p v }) := by
  have key : callNative w argc receiver i m =
      (.ok v, { m with heap := h', ptr := p, mem := memClear m.mem p m.ptr }) := by
    have hpop : popCount (argc + 1) m =
        (.ok (memRange m.mem p (argc + 1)), { m with mem := memClear m.mem p m.ptr, ptr := p }) := by
      unfold popCount
      rw [if_pos ⟨by omega, hb⟩]
      have : m.ptr - (argc + 1) = p := by omega
      rw [this]
    have hrun : ∀ args, args = nativeArgs receiver m.mem p argc →
        runNative w i args { m with mem := memClear m.mem p m.ptr, ptr := p } =
          (.ok v, { m with heap := h', ptr := p, mem := memClear m.mem p m.ptr }) := by
      rintro _ rfl
      unfold runNative
      dsimp only
      rw [hn]
    unfold callNative
    rw [bind_ok hpop]
    refine hrun _ ?_
    rw [memRange_cons]
    cases receiver <;> rfl
  have htarget : (match callTarget (m.mem p) with
      | (.fnClosure bc _ _ us, receiver) => callScript w n argc receiver bc (some us)
      | (.fnScript bc _ _, receiver) => callScript w n argc receiver bc none
      | (.cls c, _) => do
        let o ← onHeap fun h => h.newObject c
        callCtor w n argc c o
      | (.fnNative i, receiver) => callNative w argc receiver i
      | _ => V.err .assertFunction) = callNative w argc receiver i := by
    rw [ht]
    cases receiver <;> rfl
  rw [callFn]
  rw [bind_ok (peek_eval (i := argc) (p := p) hp (by omega))]
  refine (congrFun (congrArg (fun x => V.bind x push) htarget) m).trans ?_
  show V.bind _ _ m = _
  unfold V.bind
  rw [key]
  exact push_eval v (show p < maxStack by omega)

/-- A bound native function that returns its second argument, called with two arguments. -/
example (w : World) (n : Nat) (hw : ∀ args h, w.native 0 args h = (.ok (args.getD 1 .null), h)) :
    let m : VM := { mem := fun i => [Value.fnBound (.int 5) (.fnNative 0), .int 6, .int 7].getD i .null, ptr := 3 }
    callFn w (n + 1) 2 m =
      (.ok (), { m with ptr := 1, mem := upd (memClear m.mem 0 3) 0 (.int 6) }) :=
  call_native w n (p := 0) (receiver := some (.int 5)) rfl (by decide) rfl (hw _ _)

/-! ## C47 -/

/-- Two numbers of the same kind. -/
def sameNumber : ValueKind → ValueKind → Bool
  | .int, .int | .float, .float => true
  | _, _ => false

/-- Two booleans, or two numbers of the same kind. -/
def sameOrdered : ValueKind → ValueKind → Bool
  | .bool, .bool | .int, .int | .float, .float => true
  | _, _ => false

/-- Null or unit. -/
def isEmptyKind : ValueKind → Bool
  | .null | .unit => true
  | _ => false

/-- The kinds on which an operator is built in. -/
def hasBuiltin (o : Opcode) (a b : ValueKind) : Bool :=
  match o with
  | .multiply | .divide | .remainder | .add | .subtract => sameNumber a b
  | .greaterThan | .greaterThanOrEqual | .lessThan | .lessThanOrEqual => sameOrdered a b
  | .equal | .notEqual => isEmptyKind a || isEmptyKind b || sameOrdered a b
  | _ => false

/-- The name of the operator function. -/
def operatorName : Opcode → Option String
  | .multiply => some "#mul"
  | .divide => some "#div"
  | .remainder => some "#rem"
  | .add => some "#add"
  | .subtract => some "#sub"
  | .greaterThan => some "#gt"
  | .greaterThanOrEqual => some "#gte"
  | .lessThan => some "#lt"
  | .lessThanOrEqual => some "#lte"
  | .equal => some "#eq"
  | .notEqual => some "#neq"
  | .rangeInclusive => some "#range_inclusive"
  | .rangeExclusive => some "#range_exclusive"
  | _ => none

/-- What `hasBuiltin` says about the decision of the machine for one opcode. -/
def BuiltinOk (w : World) (o : Opcode) (name : String) (l r : Value) : Prop :=
  (hasBuiltin o l.kind r.kind = true → ∀ n, binDecide w o l r ≠ .call n) ∧
  (hasBuiltin o l.kind r.kind = false → binDecide w o l r = .call name)

theorem BuiltinOk.value {w : World} {o : Opcode} {name : String} {l r : Value} (h : hasBuiltin o l.kind r.kind = true)
    (hd : ∀ n, binDecide w o l r ≠ .call n) : BuiltinOk w o name l r :=
  ⟨fun _ => hd, fun h' => by rw [h] at h'; exact nomatch h'⟩

theorem BuiltinOk.call {w : World} {o : Opcode} {name : String} {l r : Value} (h : hasBuiltin o l.kind r.kind = false)
    (hd : binDecide w o l r = .call name) : BuiltinOk w o name l r :=
  ⟨fun h' => (by rw [h] at h'; exact absurd h' (by decide)), fun _ => hd⟩

theorem builtin_multiply (w : World) (l r : Value) : BuiltinOk w .multiply "#mul" l r := by
  cases l <;> cases r <;> first
    | exact .call rfl rfl
    | exact .value rfl (fun _ h => nomatch h)

theorem builtin_divide (w : World) (l r : Value) : BuiltinOk w .divide "#div" l r := by
  cases l <;> cases r <;> first
    | exact .call rfl rfl
    | exact .value rfl (fun _ h => BinResult.noConfusion h)
    | refine .value rfl (fun n h => ?_)
  all_goals
    dsimp only [binDecide] at h
    split at h <;> exact nomatch h

theorem builtin_remainder (w : World) (l r : Value) : BuiltinOk w .remainder "#rem" l r := by
  cases l <;> cases r <;> first
    | exact .call rfl rfl
    | exact .value rfl (fun _ h => BinResult.noConfusion h)
    | refine .value rfl (fun n h => ?_)
  all_goals
    dsimp only [binDecide] at h
    split at h <;> exact nomatch h

theorem builtin_add (w : World) (l r : Value) : BuiltinOk w .add "#add" l r := by
  cases l <;> cases r <;> first
    | exact .call rfl rfl
    | exact .value rfl (fun _ h => nomatch h)

theorem builtin_subtract (w : World) (l r : Value) : BuiltinOk w .subtract "#sub" l r := by
  cases l <;> cases r <;> first
    | exact .call rfl rfl
    | exact .value rfl (fun _ h => nomatch h)

theorem builtin_greaterThan (w : World) (l r : Value) : BuiltinOk w .greaterThan "#gt" l r := by
  cases l <;> cases r <;> first
    | exact .call rfl rfl
    | exact .value rfl (fun _ h => nomatch h)

theorem builtin_greaterThanOrEqual (w : World) (l r : Value) : BuiltinOk w .greaterThanOrEqual "#gte" l r := by
  cases l <;> cases r <;> first
    | exact .call rfl rfl
    | exact .value rfl (fun _ h => nomatch h)

theorem builtin_lessThan (w : World) (l r : Value) : BuiltinOk w .lessThan "#lt" l r := by
  cases l <;> cases r <;> first
    | exact .call rfl rfl
    | exact .value rfl (fun _ h => nomatch h)

theorem builtin_lessThanOrEqual (w : World) (l r : Value) : BuiltinOk w .lessThanOrEqual "#lte" l r := by
  cases l <;> cases r <;> first
    | exact .call rfl rfl
    | exact .value rfl (fun _ h => nomatch h)

theorem builtin_equal (w : World) (l r : Value) : BuiltinOk w .equal "#eq" l r := by
  cases l <;> cases r <;> first
    | exact .call rfl rfl
    | exact .value rfl (fun _ h => nomatch h)

theorem builtin_notEqual (w : World) (l r : Value) : BuiltinOk w .notEqual "#neq" l r := by
  cases l <;> cases r <;> first
    | exact .call rfl rfl
    | exact .value rfl (fun _ h => nomatch h)

theorem builtin_rangeInclusive (w : World) (l r : Value) : BuiltinOk w .rangeInclusive "#range_inclusive" l r :=
  .call rfl rfl

theorem builtin_rangeExclusive (w : World) (l r : Value) : BuiltinOk w .rangeExclusive "#range_exclusive" l r :=
  .call rfl rfl

theorem binDecide_builtin (w : World) {o : Opcode} {name : String} (ho : operatorName o = some name) (l r : Value) :
    BuiltinOk w o name l r := by
  cases o <;> cases ho
  · exact builtin_multiply w l r
  · exact builtin_divide w l r
  · exact builtin_remainder w l r
  · exact builtin_add w l r
  · exact builtin_subtract w l r
  · exact builtin_greaterThan w l r
  · exact builtin_greaterThanOrEqual w l r
  · exact builtin_lessThan w l r
  · exact builtin_lessThanOrEqual w l r
  · exact builtin_equal w l r
  · exact builtin_notEqual w l r
  · exact builtin_rangeInclusive w l r
  · exact builtin_rangeExclusive w l r

/-- **C47**: on built-in pairs no user code runs: whatever calling a function would do, the result is the
same. -/
theorem builtin_no_call (w : World) (cf cf' : Nat → V Unit) {o : Opcode} {name : String}
    (ho : operatorName o = some name) {m : VM} {p : Nat} {l r : Value} (ht : Top2 m p l r)
    (hb : hasBuiltin o l.kind r.kind = true) : binaryOp w cf o m = binaryOp w cf' o m := by
  rw [binaryOp_top2 w cf o ht, binaryOp_top2 w cf' o ht]
  have := (binDecide_builtin w ho l r).1 hb
  cases hd : binDecide w o l r with
  | call n => exact absurd hd (this n)
  | _ => rfl

/-- **C47**: the operator method of the left operand is called with the right operand as its argument. -/
theorem operator_method (w : World) (cf : Nat → V Unit) {o : Opcode} {name : String}
    (ho : operatorName o = some name) {m : VM} {p : Nat} {l r f : Value} (ht : Top2 m p l r)
    (hb : hasBuiltin o l.kind r.kind = false) (hf : Member w m.heap l name f) (hn : f ≠ .null) :
    binaryOp w cf o m = cf 1 { m with mem := upd (upd m.mem p f) (p + 1) r } := by
  have hbd := ht.bound
  have hptr := ht.ptr
  rw [binaryOp_top2 w cf o ht, (binDecide_builtin w ho l r).2 hb]
  dsimp only
  unfold callBinaryOp
  rw [bind_ok (pop_eval (p := p) rfl (by omega))]
  dsimp only
  rw [upd_other (by omega), ht.lhs]
  have hg : ∀ m' : VM, m'.heap = m.heap → getField w name l m' = (.ok f, m') := by
    intro m' he
    exact getField_member (by rw [he]; exact hf)
  rw [bind_ok (hg _ (by rfl))]
  have : f.isNull = false := by cases f <;> first | rfl | exact absurd rfl hn
  rw [this, if_neg (by decide)]
  rw [bind_ok (push_eval _ (by show p < maxStack; omega)), bind_ok (push_eval _ (by show p + 1 < maxStack; omega))]
  dsimp only
  congr 1
  rw [← hptr]
  congr 1
  funext j
  unfold upd
  split
  · rfl
  · split
    · rfl
    · rfl

/-- **C47**: without such a method the global operator function is called with both operands, the left one
first. -/
theorem operator_global (w : World) (cf : Nat → V Unit) {o : Opcode} {name : String}
    (ho : operatorName o = some name) {m : VM} {p : Nat} {l r f : Value} (ht : Top2 m p l r)
    (hroom : p + 2 < maxStack)
    (hb : hasBuiltin o l.kind r.kind = false) (hf : Member w m.heap l name .null)
    (hglob : m.globals.get name = some f) :
    binaryOp w cf o m = cf 2 { m with
      mem := upd (upd (upd m.mem p f) (p + 1) l) (p + 2) r, ptr := p + 3 } := by
  have hbd := ht.bound
  rw [binaryOp_top2 w cf o ht, (binDecide_builtin w ho l r).2 hb]
  dsimp only
  unfold callBinaryOp
  rw [bind_ok (pop_eval (p := p) rfl (by omega))]
  dsimp only
  rw [upd_other (by omega), ht.lhs]
  have hg : ∀ m' : VM, m'.heap = m.heap → getField w name l m' = (.ok .null, m') := by
    intro m' he
    exact getField_member (by rw [he]; exact hf)
  rw [bind_ok (hg _ (by rfl))]
  show ((operatorFn name >>= fun f => _) : V Unit) _ = _
  have hop : ∀ m' : VM, m'.globals = m.globals → operatorFn name m' = (.ok f, m') := by
    intro m' he
    unfold operatorFn
    rw [he, hglob]
  rw [bind_ok (hop _ (by rfl)), bind_ok (push_eval _ (by show p < maxStack; omega)),
    bind_ok (push_eval _ (by show p + 1 < maxStack; omega)), bind_ok (push_eval _ (by show p + 2 < maxStack; omega))]
  dsimp only
  congr 1
  congr 1
  funext j
  unfold upd
  repeat' split
  all_goals first | rfl | omega

/-- **C47**: and without either the operator is an error. -/
theorem operator_undefined (w : World) (cf : Nat → V Unit) {o : Opcode} {name : String}
    (ho : operatorName o = some name) {m : VM} {p : Nat} {l r : Value} (ht : Top2 m p l r)
    (hb : hasBuiltin o l.kind r.kind = false) (hf : Member w m.heap l name .null)
    (hglob : m.globals.get name = none) :
    (binaryOp w cf o m).1 = .err (.operatorUndefined name) := by
  have hbd := ht.bound
  rw [binaryOp_top2 w cf o ht, (binDecide_builtin w ho l r).2 hb]
  dsimp only
  unfold callBinaryOp
  rw [bind_ok (pop_eval (p := p) rfl (by omega))]
  dsimp only
  rw [upd_other (by omega), ht.lhs]
  have hg : ∀ m' : VM, m'.heap = m.heap → getField w name l m' = (.ok .null, m') := by
    intro m' he
    exact getField_member (by rw [he]; exact hf)
  rw [bind_ok (hg _ (by rfl))]
  show (((operatorFn name >>= fun f => _) : V Unit) _).1 = _
  have hop : ∀ m' : VM, m'.globals = m.globals → operatorFn name m' = (.err (.operatorUndefined name), m') := by
    intro m' he
    unfold operatorFn
    rw [he, hglob]
  rw [bind_err (hop _ (by rfl))]

example : hasBuiltin .add .string .string = false ∧ hasBuiltin .add .int .int = true ∧
    hasBuiltin .equal .null .object = true ∧ hasBuiltin .rangeExclusive .int .int = false :=
  ⟨rfl, rfl, rfl, rfl⟩

end Dice
