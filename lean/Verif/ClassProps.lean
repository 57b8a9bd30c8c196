import Verif.GlobalProps

/-!
# C32, C33, C34: classes

The first part is an invariant of the heap that every execution keeps: the class hierarchy is well-founded
and recorded correctly in the lists of type ids, and field maps are shared only between classes of the same
hierarchy.
-/

namespace Dice

/-- `Class::new`, value/class.rs:25-42: a class without base. -/
def Heap.newRootClass (h : Heap) (name : String) : Value × Heap :=
  let (o, h) := h.newObj none
  (.cls h.classes.length,
    { h with classes := h.classes ++ [{ name, methods := [], object := o, typeIds := [h.classes.length], base := none }] })

/-- `d` is `c` or one of its ancestors. -/
inductive Ancestor (h : Heap) : Nat → Nat → Prop where
  | refl {c : Nat} (hc : c < h.classes.length) : Ancestor h c c
  | step {c b d : Nat} {cl : Cls} (hc : h.classes[c]? = some cl) (hb : cl.base = some b)
      (hd : Ancestor h b d) : Ancestor h c d

/-- The address of the field map of a value that has one. -/
def Heap.fieldsOf (h : Heap) (v : Value) : Option Nat := (h.asObject v).map (·.fields)

/-- What holds of the heap at any time. -/
structure HeapInv (h : Heap) : Prop where
  /-- The type ids of a class are its own followed by those of its base, and bases are older. -/
  hier : ∀ (c : Nat) (cl : Cls), h.classes[c]? = some cl →
    match cl.base with
    | none => cl.typeIds = [c]
    | some b => b < c ∧ ∃ bl : Cls, h.classes[b]? = some bl ∧ cl.typeIds = c :: bl.typeIds
  /-- Field maps exist. -/
  bound : ∀ v a, h.fieldsOf v = some a → a < h.maps.length
  /-- Field maps are shared by classes with the same oldest ancestor only. -/
  inj : ∀ v v' a, h.fieldsOf v = some a → h.fieldsOf v' = some a →
    v = v' ∨ ∃ (c c' : Nat) (cl cl' : Cls), v = .cls c ∧ v' = .cls c' ∧ h.classes[c]? = some cl ∧ h.classes[c']? = some cl' ∧
      cl.typeIds.getLast? = cl'.typeIds.getLast?

/-- Nothing about identity and hierarchy is ever changed or forgotten. -/
structure HeapLe (h h' : Heap) : Prop where
  classes : ∀ (c : Nat) (cl : Cls), h.classes[c]? = some cl → ∃ cl' : Cls, h'.classes[c]? = some cl' ∧ cl'.name = cl.name ∧
    cl'.typeIds = cl.typeIds ∧ cl'.base = cl.base ∧ cl'.object = cl.object
  objects : ∀ (o : Nat) (ob : Obj), h.objects[o]? = some ob → h'.objects[o]? = some ob
  arrays : ∀ (a : Nat) (arr : Arr), h.arrays[a]? = some arr → ∃ arr' : Arr, h'.arrays[a]? = some arr' ∧ arr'.object = arr.object

/-- The native functions respect the heap. -/
structure NativesOk (w : World) : Prop where
  inv : ∀ i args h, HeapInv h → HeapInv (w.native i args h).2
  le : ∀ i args h, HeapLe h (w.native i args h).2

theorem HeapLe.refl (h : Heap) : HeapLe h h :=
  ⟨fun _ cl hc => ⟨cl, hc, rfl, rfl, rfl, rfl⟩, fun _ _ h => h, fun _ a ha => ⟨a, ha, rfl⟩⟩

theorem HeapLe.trans {a b c : Heap} (h1 : HeapLe a b) (h2 : HeapLe b c) : HeapLe a c := by
  refine ⟨?_, fun o ob h => h2.objects o ob (h1.objects o ob h), ?_⟩
  · intro i cl hi
    obtain ⟨cl1, e1, n1, t1, b1, o1⟩ := h1.classes i cl hi
    obtain ⟨cl2, e2, n2, t2, b2, o2⟩ := h2.classes i cl1 e1
    exact ⟨cl2, e2, n2.trans n1, t2.trans t1, b2.trans b1, o2.trans o1⟩
  · intro i a ha
    obtain ⟨a1, e1, o1⟩ := h1.arrays i a ha
    obtain ⟨a2, e2, o2⟩ := h2.arrays i a1 e1
    exact ⟨a2, e2, o2.trans o1⟩

/-! ## Preservation -/

theorem getElem?_append_one {α : Type} {xs : List α} {x y : α} {i : Nat} :
    (xs ++ [x])[i]? = some y ↔ xs[i]? = some y ∨ (i = xs.length ∧ y = x) := by
  rw [List.getElem?_append]
  split
  · rename_i h
    constructor
    · exact .inl
    · rintro (h1 | ⟨h1, -⟩)
      · exact h1
      · omega
  · rename_i h
    rw [List.getElem?_singleton]
    constructor
    · intro h1
      split at h1
      · exact .inr ⟨by omega, (Option.some.inj h1).symm⟩
      · exact nomatch h1
    · rintro (h1 | ⟨h1, h2⟩)
      · rw [List.getElem?_eq_none (by omega)] at h1
        exact nomatch h1
      · subst h1 h2
        simp

theorem getElem?_length_none {α : Type} (xs : List α) : xs[xs.length]? = none := List.getElem?_eq_none (by omega)

/-- A heap that only has more field maps and has more objects and arrays, all with fresh maps. -/
theorem HeapInv.empty : HeapInv {} := by
  refine ⟨?_, ?_, ?_⟩
  · intro c cl h
    simp at h
  · intro v a h
    cases v <;> simp [Heap.fieldsOf, Heap.asObject] at h
  · intro v v' a h
    cases v <;> simp [Heap.fieldsOf, Heap.asObject] at h

theorem fieldsOf_object {h : Heap} {o : Nat} : h.fieldsOf (.object o) = (h.objects[o]?).map (·.fields) := rfl
theorem fieldsOf_array {h : Heap} {a : Nat} : h.fieldsOf (.array a) = (h.arrays[a]?).map (·.object.fields) := by
  show ((h.arrays[a]?).map (·.object)).map _ = _
  cases h.arrays[a]? <;> rfl
theorem fieldsOf_cls {h : Heap} {c : Nat} : h.fieldsOf (.cls c) = (h.classes[c]?).map (·.object.fields) := by
  show ((h.classes[c]?).map (·.object)).map _ = _
  cases h.classes[c]? <;> rfl

/-- Adding one value `v0` with a fresh field map. -/
theorem HeapInv.extend {h h' : Heap} (hi : HeapInv h) (v0 : Value) (hcls : h'.classes = h.classes)
    (hmaps : h'.maps.length = h.maps.length + 1)
    (hnew : h'.fieldsOf v0 = some h.maps.length)
    (hold : ∀ v, v ≠ v0 → h'.fieldsOf v = h.fieldsOf v) (hfresh : h.fieldsOf v0 = none) : HeapInv h' := by
  have split : ∀ v a, h'.fieldsOf v = some a → (v = v0 ∧ a = h.maps.length) ∨ (h.fieldsOf v = some a ∧ v ≠ v0) := by
    intro v a ha
    by_cases hv : v = v0
    · left
      rw [hv, hnew] at ha
      exact ⟨hv, (Option.some.inj ha).symm⟩
    · right
      rw [hold v hv] at ha
      exact ⟨ha, hv⟩
  refine ⟨?_, ?_, ?_⟩
  · rw [hcls]
    exact hi.hier
  · intro v a ha
    rcases split v a ha with ⟨-, rfl⟩ | ⟨h1, -⟩
    · omega
    · have := hi.bound v a h1
      omega
  · intro v v' a ha ha'
    rw [hcls]
    rcases split v a ha with ⟨rfl, rfl⟩ | ⟨h1, -⟩ <;> rcases split v' _ ha' with ⟨h2, h3⟩ | ⟨h2, -⟩
    · exact .inl h2.symm
    · have := hi.bound _ _ h2
      omega
    · have := hi.bound _ _ h1
      omega
    · exact hi.inj v v' a h1 h2

theorem HeapInv.newObject {h : Heap} (hi : HeapInv h) (c : Nat) : HeapInv (h.newObject c).2 := by
  refine hi.extend (.object h.objects.length) rfl (by simp [Heap.newObject, Heap.newObj]) ?_ ?_ ?_
  · rw [fieldsOf_object]
    simp [Heap.newObject, Heap.newObj]
  · intro v hv
    cases v <;> try rfl
    rename_i o
    have ho : o ≠ h.objects.length := fun e => hv (by rw [e])
    rw [fieldsOf_object, fieldsOf_object]
    congr 1
    show (h.objects ++ [_])[o]? = _
    rw [List.getElem?_append]
    split
    · rfl
    · rw [List.getElem?_eq_none (by simp; omega), List.getElem?_eq_none (by omega)]
  · rw [fieldsOf_object, getElem?_length_none]
    rfl

theorem HeapInv.newArray {h : Heap} (hi : HeapInv h) (xs : List Value) : HeapInv (h.newArray xs).2 := by
  refine hi.extend (.array h.arrays.length) rfl (by simp [Heap.newArray, Heap.newObj]) ?_ ?_ ?_
  · rw [fieldsOf_array]
    simp [Heap.newArray, Heap.newObj]
  · intro v hv
    cases v <;> try rfl
    rename_i o
    have ho : o ≠ h.arrays.length := fun e => hv (by rw [e])
    rw [fieldsOf_array, fieldsOf_array]
    congr 1
    show (h.arrays ++ [_])[o]? = _
    rw [List.getElem?_append]
    split
    · rfl
    · rw [List.getElem?_eq_none (by simp; omega), List.getElem?_eq_none (by omega)]
  · rw [fieldsOf_array, getElem?_length_none]
    rfl

theorem typeIds_ne_nil {h : Heap} (hi : HeapInv h) {c : Nat} {cl : Cls} (hc : h.classes[c]? = some cl) :
    ∃ rest, cl.typeIds = c :: rest := by
  have := hi.hier c cl hc
  cases hb : cl.base with
  | none =>
    rw [hb] at this
    exact ⟨[], this⟩
  | some b =>
    rw [hb] at this
    obtain ⟨-, bl, -, h2⟩ := this
    exact ⟨_, h2⟩

theorem HeapInv.derive {h : Heap} (hi : HeapInv h) (name : String) {base : Nat} {b : Cls}
    (hb : h.classes[base]? = some b) : HeapInv (h.classWithBase name base b).2 := by
  have hlt : base < h.classes.length := (List.getElem?_eq_some_iff.mp hb).1
  let c0 : Cls :=
    { name
      methods := b.methods.filter (fun p => p.1 != "new")
      object := { cls := b.object.cls, fields := b.object.fields }
      typeIds := h.classes.length :: b.typeIds
      base := some base }
  have hcl : (h.classWithBase name base b).2.classes = h.classes ++ [c0] := rfl
  have keep : ∀ (c : Nat) (cl : Cls), h.classes[c]? = some cl → (h.classWithBase name base b).2.classes[c]? = some cl := by
    intro c cl hc
    rw [hcl, getElem?_append_one]
    exact .inl hc
  have hf : ∀ v, v ≠ .cls h.classes.length →
      (h.classWithBase name base b).2.fieldsOf v = h.fieldsOf v := by
    intro v hv
    cases v <;> try rfl
    rename_i o
    have ho : o ≠ h.classes.length := fun e => hv (by rw [e])
    rw [fieldsOf_cls, fieldsOf_cls]
    congr 1
    show (h.classes ++ [_])[o]? = _
    rw [List.getElem?_append]
    split
    · rfl
    · rw [List.getElem?_eq_none (by simp; omega), List.getElem?_eq_none (by omega)]
  have hnew : (h.classWithBase name base b).2.fieldsOf (.cls h.classes.length) = h.fieldsOf (.cls base) := by
    rw [fieldsOf_cls, fieldsOf_cls, hb, hcl]
    simp [c0]
  obtain ⟨rest, hrest⟩ := typeIds_ne_nil hi hb
  have hlast : c0.typeIds.getLast? = b.typeIds.getLast? := by
    show (h.classes.length :: b.typeIds).getLast? = _
    rw [hrest]
    rfl
  refine ⟨?_, ?_, ?_⟩
  · intro c cl hc
    rw [hcl, getElem?_append_one] at hc
    rcases hc with hc | ⟨rfl, rfl⟩
    · have := hi.hier c cl hc
      cases hbase : cl.base with
      | none =>
        rw [hbase] at this
        exact this
      | some b' =>
        rw [hbase] at this
        obtain ⟨h1, bl, h2, h3⟩ := this
        exact ⟨h1, bl, keep _ _ h2, h3⟩
    · exact ⟨hlt, b, keep _ _ hb, rfl⟩
  · intro v a ha
    by_cases hv : v = .cls h.classes.length
    · rw [hv, hnew] at ha
      exact hi.bound _ _ ha
    · rw [hf v hv] at ha
      exact hi.bound _ _ ha
  · -- every value has the field map of an old value with the same root
    have old : ∀ v a, (h.classWithBase name base b).2.fieldsOf v = some a →
        (h.fieldsOf v = some a ∧ v ≠ .cls h.classes.length) ∨
        (v = .cls h.classes.length ∧ h.fieldsOf (.cls base) = some a) := by
      intro v a ha
      by_cases hv : v = .cls h.classes.length
      · right
        rw [hv, hnew] at ha
        exact ⟨hv, ha⟩
      · left
        rw [hf v hv] at ha
        exact ⟨ha, hv⟩
    have hc0 : (h.classWithBase name base b).2.classes[h.classes.length]? = some c0 := by
      rw [hcl, getElem?_append_one]
      exact .inr ⟨rfl, rfl⟩
    intro v v' a ha ha'
    rcases old v a ha with ⟨h1, -⟩ | ⟨rfl, h1⟩ <;> rcases old v' a ha' with ⟨h2, -⟩ | ⟨rfl, h2⟩
    · rcases hi.inj v v' a h1 h2 with e | ⟨c, c', cl, cl', e1, e2, e3, e4, e5⟩
      · exact .inl e
      · exact .inr ⟨c, c', cl, cl', e1, e2, keep _ _ e3, keep _ _ e4, e5⟩
    · rcases hi.inj v (.cls base) a h1 h2 with e | ⟨c, c', cl, cl', e1, e2, e3, e4, e5⟩
      · exact .inr ⟨base, _, b, c0, e, rfl, keep _ _ hb, hc0, hlast.symm⟩
      · injection e2 with e2
        subst e2
        rw [hb] at e4
        cases e4
        exact .inr ⟨c, _, cl, c0, e1, rfl, keep _ _ e3, hc0, e5.trans hlast.symm⟩
    · rcases hi.inj (.cls base) v' a h1 h2 with e | ⟨c, c', cl, cl', e1, e2, e3, e4, e5⟩
      · exact .inr ⟨_, base, c0, b, rfl, e.symm, hc0, keep _ _ hb, hlast⟩
      · injection e1 with e1
        subst e1
        rw [hb] at e3
        cases e3
        exact .inr ⟨_, c', c0, cl', rfl, e2, hc0, keep _ _ e4, hlast.trans e5⟩
    · exact .inl rfl

/-- Changes of contents only: of field maps, methods, elements. -/
theorem HeapInv.contents {h h' : Heap} (hi : HeapInv h) (hm : h'.maps.length = h.maps.length)
    (ho : h'.objects = h.objects)
    (ha : ∀ v, h'.fieldsOf v = h.fieldsOf v)
    (hc : ∀ (c : Nat) (cl : Cls), h'.classes[c]? = some cl → ∃ cl0 : Cls, h.classes[c]? = some cl0 ∧ cl.typeIds = cl0.typeIds ∧
      cl.base = cl0.base)
    (hc' : ∀ (c : Nat) (cl : Cls), h.classes[c]? = some cl → ∃ cl0 : Cls, h'.classes[c]? = some cl0 ∧ cl0.typeIds = cl.typeIds) :
    HeapInv h' := by
  refine ⟨?_, ?_, ?_⟩
  · intro c cl h1
    obtain ⟨cl0, e1, e2, e3⟩ := hc c cl h1
    have := hi.hier c cl0 e1
    rw [e3]
    cases hb : cl0.base with
    | none =>
      rw [hb] at this
      exact e2.trans this
    | some b =>
      rw [hb] at this
      obtain ⟨h2, bl, h3, h4⟩ := this
      obtain ⟨bl', h5, h6⟩ := hc' b bl h3
      exact ⟨h2, bl', h5, by rw [e2, h4, h6]⟩
  · intro v a hv
    rw [ha] at hv
    rw [hm]
    exact hi.bound v a hv
  · intro v v' a hv hv'
    rw [ha] at hv hv'
    rcases hi.inj v v' a hv hv' with e | ⟨c, c', cl, cl', e1, e2, e3, e4, e5⟩
    · exact .inl e
    · obtain ⟨d, d1, d2⟩ := hc' c cl e3
      obtain ⟨d', d1', d2'⟩ := hc' c' cl' e4
      exact .inr ⟨c, c', d, d', e1, e2, d1, d1', by rw [d2, d2', e5]⟩

theorem getElem?_modify_some {α : Type} {xs : List α} {f : α → α} {i j : Nat} {y : α} :
    (xs.modify i f)[j]? = some y ↔ ∃ x, xs[j]? = some x ∧ y = if i = j then f x else x := by
  rw [List.getElem?_modify]
  cases xs[j]? with
  | none => simp
  | some x => simp [eq_comm]

theorem HeapInv.setField {h : Heap} (hi : HeapInv h) (o : Obj) (key : String) (v : Value) :
    HeapInv (h.setField o key v) :=
  hi.contents (by simp [Heap.setField]) rfl (fun _ => by rfl) (fun c cl hc => ⟨cl, hc, rfl, rfl⟩)
    (fun c cl hc => ⟨cl, hc, rfl⟩)

theorem HeapInv.setMethod {h : Heap} (hi : HeapInv h) (c : Nat) (key : String) (v : Value) :
    HeapInv (h.setMethod c key v) := by
  refine hi.contents rfl rfl ?_ ?_ ?_
  · intro x
    cases x <;> try rfl
    rename_i d
    rw [fieldsOf_cls, fieldsOf_cls]
    show ((h.classes.modify c _)[d]?).map _ = _
    rw [List.getElem?_modify]
    cases h.classes[d]? with
    | none => rfl
    | some cl =>
      simp only [Option.map_some, Option.map_eq_map]
      split <;> rfl
  · intro d cl hd
    obtain ⟨x, h1, h2⟩ := getElem?_modify_some.mp hd
    refine ⟨x, h1, ?_⟩
    rw [h2]
    split <;> exact ⟨rfl, rfl⟩
  · intro d cl hd
    refine ⟨_, getElem?_modify_some.mpr ⟨cl, hd, rfl⟩, ?_⟩
    split <;> rfl

theorem HeapInv.setArray {h : Heap} (hi : HeapInv h) {a : Nat} {arr : Arr} (ha : h.arrays[a]? = some arr)
    (xs : List Value) :
    HeapInv { h with arrays := h.arrays.set a { arr with elements := xs } } := by
  refine hi.contents rfl rfl ?_ (fun c cl hc => ⟨cl, hc, rfl, rfl⟩) (fun c cl hc => ⟨cl, hc, rfl⟩)
  intro x
  cases x <;> try rfl
  rename_i d
  rw [fieldsOf_array, fieldsOf_array]
  show ((h.arrays.set a _)[d]?).map _ = _
  rw [List.getElem?_set]
  split
  · rename_i e
    subst e
    split
    · rw [ha]
      rfl
    · rename_i hn
      rw [List.getElem?_eq_none (by omega)]
  · rfl

theorem HeapInv.newRootClass {h : Heap} (hi : HeapInv h) (name : String) : HeapInv (h.newRootClass name).2 := by
  let c0 : Cls :=
    { name, methods := [], object := { cls := none, fields := h.maps.length }, typeIds := [h.classes.length],
      base := none }
  have hcl : (h.newRootClass name).2.classes = h.classes ++ [c0] := rfl
  have keep : ∀ (c : Nat) (cl : Cls), h.classes[c]? = some cl → (h.newRootClass name).2.classes[c]? = some cl := by
    intro c cl hc
    rw [hcl, getElem?_append_one]
    exact .inl hc
  have hf : ∀ v, v ≠ .cls h.classes.length → (h.newRootClass name).2.fieldsOf v = h.fieldsOf v := by
    intro v hv
    cases v <;> try rfl
    rename_i o
    have ho : o ≠ h.classes.length := fun e => hv (by rw [e])
    rw [fieldsOf_cls, fieldsOf_cls]
    congr 1
    show (h.classes ++ [_])[o]? = _
    rw [List.getElem?_append]
    split
    · rfl
    · rw [List.getElem?_eq_none (by simp; omega), List.getElem?_eq_none (by omega)]
  have hnew : (h.newRootClass name).2.fieldsOf (.cls h.classes.length) = some h.maps.length := by
    rw [fieldsOf_cls, hcl]
    simp [c0]
  have hlen : (h.newRootClass name).2.maps.length = h.maps.length + 1 := by
    simp [Heap.newRootClass, Heap.newObj]
  refine ⟨?_, ?_, ?_⟩
  · intro c cl hc
    rw [hcl, getElem?_append_one] at hc
    rcases hc with hc | ⟨rfl, rfl⟩
    · have := hi.hier c cl hc
      cases hbase : cl.base with
      | none =>
        rw [hbase] at this
        exact this
      | some b' =>
        rw [hbase] at this
        obtain ⟨h1, bl, h2, h3⟩ := this
        exact ⟨h1, bl, keep _ _ h2, h3⟩
    · rfl
  · intro v a ha
    rw [hlen]
    by_cases hv : v = .cls h.classes.length
    · rw [hv, hnew] at ha
      have := Option.some.inj ha
      omega
    · rw [hf v hv] at ha
      have := hi.bound _ _ ha
      omega
  · intro v v' a ha ha'
    by_cases hv : v = .cls h.classes.length <;> by_cases hv' : v' = .cls h.classes.length
    · exact .inl (hv.trans hv'.symm)
    · rw [hv, hnew] at ha
      rw [hf v' hv'] at ha'
      have := hi.bound _ _ ha'
      have := Option.some.inj ha
      omega
    · rw [hv', hnew] at ha'
      rw [hf v hv] at ha
      have := hi.bound _ _ ha
      have := Option.some.inj ha'
      omega
    · rw [hf v hv] at ha
      rw [hf v' hv'] at ha'
      rcases hi.inj v v' a ha ha' with e | ⟨c, c', cl, cl', e1, e2, e3, e4, e5⟩
      · exact .inl e
      · exact .inr ⟨c, c', cl, cl', e1, e2, keep _ _ e3, keep _ _ e4, e5⟩

theorem heapLe_append {h h' : Heap} {cs : List Cls} {os : List Obj} {as : List Arr}
    (hc : h'.classes = h.classes ++ cs) (ho : h'.objects = h.objects ++ os) (ha : h'.arrays = h.arrays ++ as) :
    HeapLe h h' := by
  have key : ∀ {α : Type} {xs ys : List α} {i : Nat} {x : α}, xs[i]? = some x → (xs ++ ys)[i]? = some x := by
    intro α xs ys i x hx
    rw [List.getElem?_append_left (List.getElem?_eq_some_iff.mp hx).1]
    exact hx
  refine ⟨?_, ?_, ?_⟩
  · intro c cl h1
    exact ⟨cl, by rw [hc]; exact key h1, rfl, rfl, rfl, rfl⟩
  · intro o ob h1
    rw [ho]
    exact key h1
  · intro a arr h1
    exact ⟨arr, by rw [ha]; exact key h1, rfl⟩

/-- The relation between the machine before and after: the invariant is kept, nothing is forgotten. -/
def HeapStep (a b : VM) : Prop := (HeapInv a.heap → HeapInv b.heap) ∧ HeapLe a.heap b.heap

theorem heapStep_prims {w : World} (hw : NativesOk w) : Prims w HeapStep := by
  refine Prims.ofUser ?_ ?_ ?_ ?_ ?_ ?_ ?_ ?_ ?_ ?_ ?_
  · intro a b h
    unfold HeapStep
    rw [h.1]
    exact ⟨id, HeapLe.refl _⟩
  · intro a b c h1 h2
    exact ⟨fun h => h2.1 (h1.1 h), h1.2.trans h2.2⟩
  · intro xs m
    exact ⟨fun h => h.newArray xs, heapLe_append (cs := []) (os := []) (List.append_nil _).symm (List.append_nil _).symm rfl⟩
  · intro c m
    exact ⟨fun h => h.newObject c, heapLe_append (cs := []) (as := []) (List.append_nil _).symm rfl (List.append_nil _).symm⟩
  · intro m name base b hb
    exact ⟨fun h => h.derive name hb,
      heapLe_append (os := []) (as := []) rfl (List.append_nil _).symm (List.append_nil _).symm⟩
  · intro m v o key x _
    exact ⟨fun h => h.setField o key x, HeapLe.refl _ |> fun h => ⟨h.classes, h.objects, h.arrays⟩⟩
  · intro c key x m
    refine ⟨fun h => h.setMethod c key x, ?_, fun _ _ h => h, fun _ a h => ⟨a, h, rfl⟩⟩
    intro d cl hd
    refine ⟨_, getElem?_modify_some.mpr ⟨cl, hd, rfl⟩, ?_⟩
    split <;> exact ⟨rfl, rfl, rfl, rfl⟩
  · intro m a arr xs ha
    refine ⟨fun h => h.setArray ha xs, fun _ cl h => ⟨cl, h, rfl, rfl, rfl, rfl⟩, fun _ _ h => h, ?_⟩
    intro d arr' hd
    show ∃ arr'', (m.heap.arrays.set a { arr with elements := xs })[d]? = some arr'' ∧ _
    rw [List.getElem?_set]
    split
    · rename_i e
      subst e
      rw [ha] at hd
      cases hd
      rw [if_pos (List.getElem?_eq_some_iff.mp ha).1]
      exact ⟨_, rfl, rfl⟩
    · exact ⟨arr', hd, rfl⟩
  · intro i args m
    exact ⟨hw.inv i args m.heap, hw.le i args m.heap⟩
  · intro m _ _ _
    exact ⟨id, HeapLe.refl _⟩
  · intro m _ _ _
    exact ⟨id, HeapLe.refl _⟩

/-- The invariant holds after every history. -/
theorem heapInv_runAll {w : World} (hw : NativesOk w) (history : List (Nat × Bytecode)) {m : VM}
    (h : HeapInv m.heap) : HeapInv (runAll w history m).heap := by
  induction history generalizing m with
  | nil => exact h
  | cons x rest ih => exact ih ((run_pres (heapStep_prims hw) x.1 x.2 m).1 h)

theorem heapLe_runAll {w : World} (hw : NativesOk w) (history : List (Nat × Bytecode)) (m : VM) :
    HeapLe m.heap (runAll w history m).heap := by
  induction history generalizing m with
  | nil => exact HeapLe.refl _
  | cons x rest ih => exact ((run_pres (heapStep_prims hw) x.1 x.2 m).2).trans (ih _)

/-! ## C32 -/

theorem Ancestor.le {h : Heap} (hi : HeapInv h) {c d : Nat} (ha : Ancestor h c d) : d ≤ c := by
  induction ha with
  | refl _ => exact Nat.le_refl _
  | step hc hb _ ih =>
    have := hi.hier _ _ hc
    rw [hb] at this
    omega

theorem mem_typeIds_iff {h : Heap} (hi : HeapInv h) (c : Nat) {cl : Cls} (hc : h.classes[c]? = some cl)
    (d : Nat) : d ∈ cl.typeIds ↔ Ancestor h c d := by
  induction c using Nat.strongRecOn generalizing cl with
  | _ c ih =>
    have := hi.hier c cl hc
    have hlt : c < h.classes.length := (List.getElem?_eq_some_iff.mp hc).1
    cases hb : cl.base with
    | none =>
      rw [hb] at this
      rw [this, List.mem_singleton]
      constructor
      · rintro rfl
        exact .refl hlt
      · intro ha
        cases ha with
        | refl => rfl
        | step h1 h2 _ =>
          rw [hc] at h1
          cases h1
          rw [hb] at h2
          exact nomatch h2
    | some b =>
      rw [hb] at this
      obtain ⟨h1, bl, h2, h3⟩ := this
      rw [h3, List.mem_cons, ih b h1 h2]
      constructor
      · rintro (rfl | ha)
        · exact .refl hlt
        · exact .step hc hb ha
      · intro ha
        cases ha with
        | refl => exact .inl rfl
        | step h4 h5 h6 =>
          rw [hc] at h4
          cases h4
          rw [hb] at h5
          cases h5
          exact .inr h6

/-- **C32**: the class test of the machine is the ancestor relation of the declared hierarchy. -/
theorem isClass_iff {h : Heap} (hi : HeapInv h) {c d : Nat} : h.isClass c d = true ↔ Ancestor h c d := by
  unfold Heap.isClass
  cases hc : h.classes[c]? with
  | none =>
    simp only [Bool.false_eq_true, false_iff]
    intro ha
    cases ha with
    | refl h1 => rw [List.getElem?_eq_some_iff.mpr ⟨h1, rfl⟩] at hc; exact nomatch hc
    | step h1 _ _ => rw [hc] at h1; exact nomatch h1
  | some cl =>
    simp only [List.contains_iff_mem]
    exact mem_typeIds_iff hi c hc d

/-- **C32**: reflexive. -/
theorem ancestor_refl {h : Heap} {c : Nat} (hc : c < h.classes.length) : Ancestor h c c := .refl hc

/-- **C32**: transitive. -/
theorem ancestor_trans {h : Heap} {a b c : Nat} (h1 : Ancestor h a b) (h2 : Ancestor h b c) : Ancestor h a c := by
  induction h1 with
  | refl _ => exact h2
  | step hc hb _ ih => exact .step hc hb (ih h2)

/-- **C32**: antisymmetric; in particular two classes with the same name are told apart. -/
theorem ancestor_antisymm {h : Heap} (hi : HeapInv h) {a b : Nat} (h1 : Ancestor h a b) (h2 : Ancestor h b a) :
    a = b := Nat.le_antisymm (h2.le hi) (h1.le hi)

/-- The class of a value: that of the object or the one registered for its kind. -/
inductive ClassOf (w : World) (h : Heap) : Value → Nat → Prop where
  | object {o : Nat} {ob : Obj} {c : Nat} (ho : h.objects[o]? = some ob) (hc : ob.cls = some c) :
      ClassOf w h (.object o) c
  | builtin {v : Value} {c : Nat} (hn : ∀ ob, h.asObject v = some ob → ob.cls = none)
      (hc : w.valueClass v.kind = some c) : ClassOf w h v c

theorem classOf_iff {w : World} {h : Heap} {v : Value} {c : Nat}
    (hcls : ∀ v ob, h.asObject v = some ob → ob.cls ≠ none → ∃ o, v = .object o) :
    h.classOf w v = some c ↔ ClassOf w h v c := by
  unfold Heap.classOf
  cases ho : (h.asObject v).bind (·.cls) with
  | some d =>
    obtain ⟨ob, h1, h2⟩ := Option.bind_eq_some_iff.mp ho
    obtain ⟨o, rfl⟩ := hcls v ob h1 (by rw [h2]; simp)
    dsimp only
    constructor
    · intro e
      cases e
      exact .object h1 h2
    · intro e
      cases e with
      | object h3 h4 =>
        have : some ob = some _ := h1.symm.trans h3
        cases this
        rw [← h2, h4]
      | builtin hn _ => rw [hn ob h1] at h2; exact nomatch h2
  | none =>
    dsimp only
    have hn : ∀ ob, h.asObject v = some ob → ob.cls = none := by
      intro ob h1
      rw [h1] at ho
      exact ho
    constructor
    · exact fun e => .builtin hn e
    · intro e
      cases e with
      | object h3 h4 =>
        have := hn _ (show h.asObject (.object _) = _ from h3)
        rw [h4] at this
        exact nomatch this
      | builtin _ h1 => exact h1

/-- **C32** for the instruction `IS`: on a stack with a value and a class, it leaves the boolean that says
whether the class is the value's class or one of its ancestors. -/
theorem is_instruction (w : World) (k : Calls) (bc : Bytecode) (f : Frame) (ups : Option (List Nat)) (pos : Nat)
    {m : VM} {p : Nat} {v : Value} {c d : Nat} (hi : HeapInv m.heap) (ht : Top2 m p v (.cls c))
    (hd : m.heap.classOf w v = some d) :
    ∃ b, step w k bc f ups .is pos m = (.ok (.goto pos), m.replace2 p (.bool b)) ∧
      (b = true ↔ Ancestor m.heap d c) := by
  refine ⟨m.heap.isOfType w v c, ?_, ?_⟩
  · have hb := ht.bound
    unfold step
    dsimp only
    rw [bind_ok (pop_eval (p := p + 1) ht.ptr (by omega)), ht.rhs]
    rw [bind_ok (show asClass (.cls c) _ = (.ok c, _) from rfl)]
    rw [bind_ok (peek_eval (i := 0) (p := p) rfl (by omega))]
    rw [bind_ok (show testType w _ c _ = _ from rfl)]
    rw [bind_ok (poke_top2 _ ht)]
    dsimp only
    rw [upd_other (by omega), ht.lhs]
    rfl
  · unfold Heap.isOfType
    rw [hd]
    exact isClass_iff hi

/-- **C32** over time: neither the class of an object nor the hierarchy changes later. -/
theorem ancestor_stable {h h' : Heap} (hl : HeapLe h h') {c d : Nat} (ha : Ancestor h c d) : Ancestor h' c d := by
  induction ha with
  | refl hc =>
    obtain ⟨cl', h1, -⟩ := hl.classes _ _ (List.getElem?_eq_some_iff.mpr ⟨hc, rfl⟩)
    exact .refl (List.getElem?_eq_some_iff.mp h1).1
  | step hc hb _ ih =>
    obtain ⟨cl', h1, -, -, h2, -⟩ := hl.classes _ _ hc
    exact .step h1 (h2.trans hb) ih

theorem ancestor_stable_iff {h h' : Heap} (hi : HeapInv h) (hl : HeapLe h h') {c d : Nat}
    (hc : c < h.classes.length) : Ancestor h' c d ↔ Ancestor h c d := by
  constructor
  · intro ha
    induction ha with
    | refl _ => exact .refl hc
    | @step c b d cl' h1 h2 _ ih =>
      have hcl := List.getElem?_eq_some_iff.mpr ⟨hc, rfl⟩
      obtain ⟨cl1, e1, -, -, e2, -⟩ := hl.classes c _ hcl
      rw [h1] at e1
      cases e1
      have hb : (h.classes[c]).base = some b := e2.symm.trans h2
      have := hi.hier c _ hcl
      rw [hb] at this
      exact .step hcl hb (ih (by omega))
  · exact ancestor_stable hl

/-- A heap with a class `A`, a class `B` derived from it and a class with the same name derived from `B`. -/
def exampleHeap : Heap :=
  let h1 := (({} : Heap).newRootClass "A").2
  match h1.classes[0]? with
  | some a =>
    let h2 := (h1.classWithBase "B" 0 a).2
    match h2.classes[1]? with
    | some b => (h2.classWithBase "B" 1 b).2
    | none => h2
  | none => h1

example : HeapInv exampleHeap := by
  have h1 := HeapInv.empty.newRootClass "A"
  have h2 := h1.derive "B" (base := 0) (b := _) rfl
  exact h2.derive "B" (base := 1) rfl

example : exampleHeap.isClass 2 0 = true ∧ exampleHeap.isClass 0 2 = false ∧ exampleHeap.isClass 1 2 = false := by
  decide

/-! ## C33 -/

/-- Operations on the class table. -/
inductive ClassOp where
  | derive (name : String) (base : Nat)
  | setMethod (c : Nat) (key : String) (v : Value)

/-- The method tables, as mathematics: how many classes there are and which methods they have. -/
structure MethodSpec where
  count : Nat
  method : Nat → String → Option Value

/-- What the operations mean. -/
def MethodSpec.apply (s : MethodSpec) : ClassOp → MethodSpec
  | .derive _ base =>
    if base < s.count then
      { count := s.count + 1
        method := fun c k => if c = s.count then (if k = "new" then none else s.method base k) else s.method c k }
    else s
  | .setMethod c key v =>
    if c < s.count then
      { s with method := fun d k => if d = c ∧ k = key then some v else s.method d k }
    else s

/-- The operations on the heap, as the instructions perform them. -/
def Heap.applyOp (h : Heap) : ClassOp → Heap
  | .derive name base =>
    match h.classes[base]? with
    | some b => (h.classWithBase name base b).2
    | none => h
  | .setMethod c key v => h.setMethod c key v

def Heap.methodSpec (h : Heap) : MethodSpec where
  count := h.classes.length
  method c k := h.method c k

theorem lookup_filter_ne (m : ValueMap) (k0 k : String) :
    List.lookup k (m.filter fun p => p.1 != k0) = if k = k0 then none else List.lookup k m := by
  induction m with
  | nil => simp
  | cons p rest ih =>
    obtain ⟨x, v⟩ := p
    rw [List.filter_cons]
    by_cases hx : x = k0
    · subst hx
      simp only [bne_self_eq_false, Bool.false_eq_true, ↓reduceIte]
      rw [ih, List.lookup_cons]
      by_cases hk : k = x
      · simp [hk]
      · simp [hk, beq_eq_false_iff_ne.mpr hk]
    · have : (x != k0) = true := by simp [hx]
      simp only [this, ↓reduceIte]
      rw [List.lookup_cons, List.lookup_cons, ih]
      by_cases hk : k = x
      · subst hk
        simp [hx]
      · simp [beq_eq_false_iff_ne.mpr hk]

/-- Only the part of a specification about existing classes counts. -/
structure MethodSpec.Same (a b : MethodSpec) : Prop where
  count : a.count = b.count
  method : ∀ c k, c < a.count → a.method c k = b.method c k

theorem applyOp_refines (h : Heap) (op : ClassOp) :
    (h.applyOp op).methodSpec.Same (h.methodSpec.apply op) := by
  cases op with
  | derive name base =>
    show MethodSpec.Same (match h.classes[base]? with
      | some b => (h.classWithBase name base b).2
      | none => h).methodSpec _
    cases hb : h.classes[base]? with
    | none =>
      have hn : ¬ base < h.classes.length := by
        intro hlt
        rw [List.getElem?_eq_some_iff.mpr ⟨hlt, rfl⟩] at hb
        exact nomatch hb
      show MethodSpec.Same h.methodSpec (if base < h.classes.length then _ else h.methodSpec)
      rw [if_neg hn]
      exact ⟨rfl, fun _ _ _ => rfl⟩
    | some b =>
      have hlt : base < h.classes.length := (List.getElem?_eq_some_iff.mp hb).1
      show MethodSpec.Same (h.classWithBase name base b).2.methodSpec (if base < h.classes.length then _ else _)
      rw [if_pos hlt]
      refine ⟨by simp [Heap.methodSpec, Heap.classWithBase], ?_⟩
      intro c k _
      show ((h.classes ++ [_])[c]?).bind _ = if c = h.classes.length then _ else _
      split
      · rename_i e
        subst e
        simp only [List.getElem?_concat_length, Option.bind_some]
        show List.lookup k (b.methods.filter fun p => p.1 != "new") = if k = "new" then none else h.method base k
        rw [lookup_filter_ne]
        have : h.method base k = List.lookup k b.methods := by
          unfold Heap.method
          rw [hb]
          rfl
        rw [this]
      · rename_i e
        show _ = h.method c k
        unfold Heap.method
        by_cases hc : c < h.classes.length
        · rw [List.getElem?_append_left hc]
        · rw [List.getElem?_eq_none (by simp; omega), List.getElem?_eq_none (by omega)]
  | setMethod c key v =>
    show MethodSpec.Same (h.setMethod c key v).methodSpec (if c < h.classes.length then _ else h.methodSpec)
    have hm : ∀ d k, (h.setMethod c key v).method d k =
        if c < h.classes.length ∧ d = c ∧ k = key then some v else h.method d k := by
      intro d k
      show ((h.classes.modify c _)[d]?).bind _ = _
      rw [List.getElem?_modify]
      unfold Heap.method
      cases hd : h.classes[d]? with
      | none =>
        have : ¬ (c < h.classes.length ∧ d = c ∧ k = key) := by
          rintro ⟨h1, rfl, -⟩
          rw [List.getElem?_eq_some_iff.mpr ⟨h1, rfl⟩] at hd
          exact nomatch hd
        rw [if_neg this]
        rfl
      | some cl =>
        have hlt : d < h.classes.length := (List.getElem?_eq_some_iff.mp hd).1
        simp only [Option.map_some, Option.map_eq_map, Option.bind_some]
        by_cases hcd : c = d
        · subst hcd
          simp only [↓reduceIte]
          rw [ValueMap.get_insert]
          by_cases hk : k = key <;> simp [hk, hlt]
        · have : ¬ d = c := fun e => hcd e.symm
          simp [hcd, this]
    split
    · rename_i hc
      refine ⟨by simp [Heap.methodSpec, Heap.setMethod], ?_⟩
      intro d k _
      show (h.setMethod c key v).method d k = if d = c ∧ k = key then some v else h.method d k
      rw [hm]
      simp [hc]
    · rename_i hc
      refine ⟨by simp [Heap.methodSpec, Heap.setMethod], ?_⟩
      intro d k _
      show (h.setMethod c key v).method d k = h.method d k
      rw [hm]
      simp [hc]

theorem MethodSpec.Same.apply {a b : MethodSpec} (h : a.Same b) (op : ClassOp) :
    (a.apply op).Same (b.apply op) := by
  cases op with
  | derive name base =>
    unfold MethodSpec.apply
    dsimp only
    rw [← h.count]
    split
    · rename_i hb
      refine ⟨rfl, ?_⟩
      intro c k hc
      dsimp only at hc ⊢
      split
      · split
        · rfl
        · exact h.method _ _ hb
      · exact h.method _ _ (by omega)
    · exact h
  | setMethod c key v =>
    unfold MethodSpec.apply
    dsimp only
    rw [← h.count]
    split
    · refine ⟨rfl, ?_⟩
      intro d k hd
      dsimp only at hd ⊢
      split
      · rfl
      · exact h.method _ _ hd
    · exact h

/-- **C33**: after any sequence of class declarations and method definitions, the methods of every class are
those the specification gives: the methods the base had when the class was declared, without `new`, overridden
and extended by its own; nothing done to one class shows in another. -/
theorem methods_refine (h : Heap) (ops : List ClassOp) :
    (ops.foldl Heap.applyOp h).methodSpec.Same (ops.foldl MethodSpec.apply h.methodSpec) := by
  have key : ∀ (ops : List ClassOp) (h : Heap) (s : MethodSpec), h.methodSpec.Same s →
      (ops.foldl Heap.applyOp h).methodSpec.Same (ops.foldl MethodSpec.apply s) := by
    intro ops
    induction ops with
    | nil => exact fun _ _ hs => hs
    | cons op rest ih =>
      intro h s hs
      have h1 := applyOp_refines h op
      have h2 := hs.apply op
      exact ih _ _ ⟨h1.count.trans h2.count, fun c k hc =>
        (h1.method c k hc).trans (h2.method c k (by rw [← h1.count]; exact hc))⟩
  exact key ops h _ ⟨rfl, fun _ _ _ => rfl⟩

/-- **C33** for the instructions: `INHERIT_CLASS` replaces the base on the stack by a new class and performs
`derive`, unless the base is a class of built-in values. -/
theorem inheritClass_derives (w : World) {m : VM} {p : Nat} {base : Nat} (name : String)
    (hp : m.ptr = p + 1) (hb : p < maxStack) (hv : m.mem p = .cls base) (hc : base < m.heap.classes.length)
    (hok : base = w.anyClass ∨ ∀ k, w.valueClass k ≠ some base) :
    inheritClass w name m = (.ok (), { m with
      heap := m.heap.applyOp (.derive name base)
      mem := upd m.mem p (.cls m.heap.classes.length) }) := by
  unfold inheritClass
  rw [bind_ok (pop_eval hp hb), hv, bind_ok (show asClass (.cls base) _ = (.ok base, _) from rfl)]
  rw [if_neg (by
    rintro ⟨h1, k, -, h2⟩
    rcases hok with h | h
    · exact h1 h
    · exact h k h2)]
  have hcl := List.getElem?_eq_some_iff.mpr ⟨hc, rfl⟩
  rw [bind_ok (show deriveClass name base { m with mem := upd m.mem p .null, ptr := p } =
    (.ok (.cls m.heap.classes.length), { m with
      mem := upd m.mem p .null, ptr := p, heap := (m.heap.classWithBase name base m.heap.classes[base]).2 }) from by
    unfold deriveClass
    dsimp only
    rw [hcl]
    rfl)]
  rw [push_eval _ (by exact hb)]
  dsimp only [Heap.applyOp]
  rw [hcl, upd_upd, ← hp]

/-- **C33**: `STORE_METHOD` takes the function and the class from the stack and performs `setMethod`. -/
theorem storeMethod_sets (w : World) (k : Calls) (bc : Bytecode) (f : Frame) (ups : Option (List Nat)) (pos : Nat)
    {m : VM} {p c : Nat} {v : Value} {key : String} (ht : Top2 m p (.cls c) v) (hv : v.kind = .function)
    (hs : symbolOperand bc pos m = (.ok key, m)) :
    step w k bc f ups .storeMethod pos m = (.ok (.goto (pos + 1)), { m with
      heap := m.heap.applyOp (.setMethod c key v)
      mem := upd (upd m.mem (p + 1) .null) p .null
      ptr := p }) := by
  have hb := ht.bound
  unfold step
  dsimp only
  rw [bind_ok hs, bind_ok (pop_eval (p := p + 1) ht.ptr (by omega)), ht.rhs]
  rw [bind_ok (pop_eval (p := p) rfl (by omega))]
  dsimp only
  rw [upd_other (by omega), ht.lhs, bind_ok (show asClass (.cls c) _ = (.ok c, _) from rfl), if_pos hv]
  rfl

/-- **C33**: constructors are not inherited, and overriding in the derived class leaves the base alone. -/
example (f g : Value) :
    let h := (({} : Heap).newRootClass "A").2
    let ops := [ClassOp.setMethod 0 "new" f, .setMethod 0 "m" f, .derive "B" 0, .setMethod 1 "m" g]
    let h' := ops.foldl Heap.applyOp h
    h'.method 1 "new" = none ∧ h'.method 1 "m" = some g ∧ h'.method 0 "m" = some f :=
  ⟨rfl, rfl, rfl⟩

/-! ## C34 -/

/-- **C34 is false**: a derived class shares its static fields with its base, whatever the base: a field
stored on the new class appears on the base. -/
theorem static_fields_shared (h : Heap) (name : String) {base : Nat} {b : Cls} (hb : h.classes[base]? = some b)
    (hm : b.object.fields < h.maps.length) (key : String) (v : Value) :
    ∃ o, (h.classWithBase name base b).2.asObject (h.classWithBase name base b).1 = some o ∧
      ((h.classWithBase name base b).2.setField o key v).ownField key (.cls base) = some v := by
  have hlt : base < h.classes.length := (List.getElem?_eq_some_iff.mp hb).1
  refine ⟨{ cls := b.object.cls, fields := b.object.fields }, ?_, ?_⟩
  · show ((h.classes ++ [_])[h.classes.length]?).map _ = _
    simp
  · unfold Heap.ownField
    have : ((h.classWithBase name base b).2.setField { cls := b.object.cls, fields := b.object.fields } key v).asObject
        (.cls base) = some b.object := by
      show ((h.classes ++ [_])[base]?).map _ = _
      rw [List.getElem?_append_left hlt, hb]
      rfl
    rw [this]
    show (h.maps.modify b.object.fields _)[b.object.fields]?.bind _ = _
    rw [List.getElem?_modify]
    have : ∃ mp, h.maps[b.object.fields]? = some mp := ⟨_, List.getElem?_eq_some_iff.mpr ⟨hm, rfl⟩⟩
    obtain ⟨mp, hmp⟩ := this
    rw [hmp]
    simp only [↓reduceIte, Option.map_eq_map, Option.map_some, Option.bind_some]
    rw [ValueMap.get_insert, if_pos rfl]

/-- **C34**, what is left of it: a store to a static field never shows in a class of another hierarchy (with
another oldest ancestor), nor in any object or array. -/
theorem static_fields_partial {h : Heap} (hi : HeapInv h) {c : Nat} {cl : Cls} {v' : Value}
    (hc : h.classes[c]? = some cl)
    (hv : ∀ (c' : Nat) (cl' : Cls), v' = .cls c' → h.classes[c']? = some cl' → cl.typeIds.getLast? ≠ cl'.typeIds.getLast?)
    (key key' : String) (x : Value) :
    (h.setField cl.object key x).ownField key' v' = h.ownField key' v' := by
  have ho : h.fieldsOf (.cls c) = some cl.object.fields := by
    rw [fieldsOf_cls, hc]
    rfl
  unfold Heap.ownField
  show (match h.asObject v' with | some o => (h.setField cl.object key x).field o key' | none => none) = _
  cases ha : h.asObject v' with
  | none => rfl
  | some o =>
    dsimp only
    have hne : cl.object.fields ≠ o.fields := by
      intro e
      have ho' : h.fieldsOf v' = some cl.object.fields := by
        unfold Heap.fieldsOf
        rw [ha, e]
        rfl
      rcases hi.inj _ _ _ ho ho' with e | ⟨c1, c', cl1, cl', e1, e2, e3, e4, e5⟩
      · exact hv c cl e.symm hc rfl
      · injection e1 with e1
        subst e1
        rw [hc] at e3
        cases e3
        exact hv c' cl' e2 e4 e5
    show ((h.maps.modify cl.object.fields _)[o.fields]?).bind _ = _
    rw [List.getElem?_modify]
    simp only [if_neg hne]
    unfold Heap.field
    cases h.maps[o.fields]? <;> rfl

/-- `B` derived from `A` shares the fields of `A`; a second class without base does not. -/
example (v : Value) :
    let h := (({} : Heap).newRootClass "A").2.newRootClass "C" |>.2
    ∃ cl, h.classes[0]? = some cl ∧ (h.setField cl.object "x" v).ownField "x" (.cls 0) = some v ∧
      (h.setField cl.object "x" v).ownField "x" (.cls 1) = none := ⟨_, rfl, rfl, rfl⟩

end Dice
