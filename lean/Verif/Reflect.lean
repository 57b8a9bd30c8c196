import Verif.NativeArray

/-! # C62: reflection -/

namespace Dice

open Natives

/-- The elements are the names in `p`, each exactly once. -/
def Natives.ListsNames (xs : List Value) (p : String → Prop) : Prop :=
  ∃ names : List String, xs = names.map .str ∧ names.Nodup ∧ ∀ k, k ∈ names ↔ p k

theorem lookup_isSome_iff (m : ValueMap) (k : String) : (m.get k).isSome ↔ k ∈ m.map (·.1) := by
  unfold ValueMap.get
  induction m with
  | nil => simp
  | cons p m ih =>
    obtain ⟨a, v⟩ := p
    rw [List.lookup_cons]
    by_cases h : k = a
    · subst h; simp
    · rw [show (k == a) = false by simpa using h]
      simpa [h] using ih

theorem nodup_eraseDups (n : Nat) : ∀ l : List String, l.length ≤ n → l.eraseDups.Nodup := by
  induction n with
  | zero =>
    intro l hl
    cases l with
    | nil => exact List.nodup_nil
    | cons a l => simp at hl
  | succ n ih =>
    intro l hl
    cases l with
    | nil => exact List.nodup_nil
    | cons a l =>
      rw [List.eraseDups_cons, List.nodup_cons]
      refine ⟨fun ha => ?_, ih _ ?_⟩
      · rw [List.mem_eraseDups, List.mem_filter] at ha
        simp at ha
      · have := List.length_filter_le (fun b => !b == a) l
        simp only [List.length_cons] at hl
        omega

theorem keys_lists (m : ValueMap) : ListsNames ((keys m).map .str) (fun k => (m.get k).isSome) := by
  refine ⟨keys m, rfl, ?_, fun k => ?_⟩
  · exact nodup_eraseDups _ _ (Nat.le_refl _)
  · show _ ↔ (m.get k).isSome = true
    rw [lookup_isSome_iff]
    exact List.mem_eraseDups

section

variable {constant : String → Float} {lib : FloatLib} {loader : String → Except RtErr Bytecode}
  {fmod : Float → Float → Float} {checks debug : Bool} (h : Heap)

/-- **C62**: `v.fields()` is a new array with the name of every field of `v`, each once; other arrays are as
before.  A value without fields gives `null`. -/
theorem fields_exact (v : Value) :
    (∀ ob, h.asObject v = some ob → ∃ a h', invoke constant lib checks "Any" "fields" [v] h = some (.ok (.array a), h') ∧
      a = h.arrays.length ∧ ListsNames (elements h' a) (fun k => (h.field ob k).isSome) ∧
      ∀ b, b ≠ a → elements h' b = elements h b) ∧
    (h.asObject v = none → invoke constant lib checks "Any" "fields" [v] h = some (.ok .null, h)) := by
  have e : invoke constant lib checks "Any" "fields" [v] h =
      some (Fn.run lib checks registered.length .fields [v] h) := by kernel_rfl
  rw [e]
  refine ⟨fun ob ho => ?_, fun ho => ?_⟩
  · refine ⟨_, (h.newArray ((keys ((h.maps[ob.fields]?).getD [])).map .str)).2, ?_, rfl, ?_, ?_⟩
    · show some (match h.asObject v with | some o => _ | none => _) = _
      rw [ho]
      rfl
    · rw [elements_newArray, if_pos rfl]
      have := keys_lists ((h.maps[ob.fields]?).getD [])
      unfold Heap.field
      cases hm : h.maps[ob.fields]? with
      | none => rw [hm] at this; exact this
      | some m => rw [hm] at this; exact this
    · intro b hb
      rw [elements_newArray, if_neg hb]
  · show some (match h.asObject v with | some o => _ | none => _) = _
    rw [ho]

/-- **C62**: `v.class_of()` is the class of `v`; for a value without class it is `Any`. -/
theorem class_of_exact (v : Value) :
    (∀ c, ClassOf (Natives.world lib loader fmod checks debug) h v c →
      invoke constant lib checks "Any" "class_of" [v] h = some (.ok (.cls c), h)) ∧
    (h.classOf (Natives.world lib loader fmod checks debug) v = none →
      invoke constant lib checks "Any" "class_of" [v] h = some (.ok (.cls anyClass), h)) := by
  have e : invoke constant lib checks "Any" "class_of" [v] h =
      some (.ok (.cls (Natives.classOf h v)), h) := by kernel_rfl
  rw [e]
  refine ⟨fun c hc => ?_, fun hn => ?_⟩
  · have : Natives.classOf h v = c := by
      unfold Natives.classOf
      cases hc with
      | @object o _ _ ho hc =>
        have : (h.asObject (.object o)).bind (·.cls) = some c := by
          rw [show h.asObject (.object o) = _ from ho]
          exact hc
        rw [this]
      | builtin hn hc =>
        have : (h.asObject v).bind (·.cls) = none := by
          cases ho : h.asObject v with
          | none => rfl
          | some ob => exact hn ob ho
        rw [this]
        change valueClass v.kind = some c at hc
        rw [hc]
        rfl
    rw [this]
  · have : Natives.classOf h v = anyClass := by
      unfold Natives.classOf
      unfold Heap.classOf at hn
      cases ho : (h.asObject v).bind (·.cls) with
      | some c => rw [ho] at hn; cases hn
      | none =>
        rw [ho] at hn
        change valueClass v.kind = none at hn
        rw [hn]
        rfl
    rw [this]

/-- **C62**: a value that has a class is an instance of what `class_of` gives. -/
theorem class_of_instance_partial (hi : HeapInv h) (v : Value) {c : Nat} (hc : c < h.classes.length)
    (hv : h.classOf (Natives.world lib loader fmod checks debug) v = some c) :
    invoke constant lib checks "Any" "class_of" [v] h = some (.ok (.cls c), h) ∧
    h.isOfType (Natives.world lib loader fmod checks debug) v c = true := by
  constructor
  · have e : invoke constant lib checks "Any" "class_of" [v] h =
        some (.ok (.cls (Natives.classOf h v)), h) := by kernel_rfl
    rw [e]
    unfold Heap.classOf at hv
    unfold Natives.classOf
    cases ho : (h.asObject v).bind (·.cls) with
    | some d => rw [ho] at hv; cases hv; rfl
    | none =>
      rw [ho] at hv
      change valueClass v.kind = some c at hv
      rw [hv]
      rfl
  · unfold Heap.isOfType
    rw [hv]
    exact (isClass_iff hi).mpr (.refl hc)

/-- **C62** fails for `null`: its class is said to be `Any`, but it is no instance of `Any`. -/
theorem null_class_wrong :
    invoke constant lib checks "Any" "class_of" [.null] h = some (.ok (.cls anyClass), h) ∧
    h.isOfType (Natives.world lib loader fmod checks debug) .null anyClass = false :=
  ⟨by kernel_rfl, rfl⟩

/-- **C62**: the values of each kind have the built-in class with the name of that kind. -/
theorem builtin_classes : ∀ p ∈ [(ValueKind.array, "Array"), (.bool, "Bool"), (.class, "Class"), (.float, "Float"),
      (.function, "Function"), (.int, "Int"), (.string, "String"), (.unit, "Unit")],
    ∃ c, (Natives.world lib loader fmod checks debug).valueClass p.1 = some c ∧
      (Natives.machine constant).globals.get p.2 = some (.cls c) ∧
      ((Natives.machine constant).heap.classes[c]?).map (fun cl => (cl.name, cl.base)) = some (p.2, some anyClass) := by
  simp only [List.mem_cons, List.not_mem_nil, or_false]
  rintro p (rfl | rfl | rfl | rfl | rfl | rfl | rfl | rfl) <;>
    exact ⟨_, rfl, by kernel_rfl, by kernel_rfl⟩

/-- **C62**: `v.methods()` is a new array with the name of every method of the class of `v`, each once. -/
theorem methods_exact (v : Value) {c : Nat} (hv : h.classOf (Natives.world lib loader fmod checks debug) v = some c) :
    ∃ a h', invoke constant lib checks "Any" "methods" [v] h = some (.ok (.array a), h') ∧
      a = h.arrays.length ∧ ListsNames (elements h' a) (fun k => (h.method c k).isSome) ∧
      ∀ b, b ≠ a → elements h' b = elements h b := by
  have e : invoke constant lib checks "Any" "methods" [v] h =
      some (.ok (.array h.arrays.length), (h.newArray ((keys (((h.classes[Natives.classOf h v]?).map
        (·.methods)).getD [])).map .str)).2) := by kernel_rfl
  have hc : Natives.classOf h v = c := by
    unfold Heap.classOf at hv
    unfold Natives.classOf
    cases ho : (h.asObject v).bind (·.cls) with
    | some d => rw [ho] at hv; cases hv; rfl
    | none =>
      rw [ho] at hv
      change valueClass v.kind = some c at hv
      rw [hv]
      rfl
  rw [e, hc]
  refine ⟨_, _, rfl, rfl, ?_, ?_⟩
  · rw [elements_newArray, if_pos rfl]
    have := keys_lists (((h.classes[c]?).map (·.methods)).getD [])
    unfold Heap.method
    cases hm : h.classes[c]? with
    | none => rw [hm] at this; exact this
    | some m => rw [hm] at this; exact this
  · intro b hb
    rw [elements_newArray, if_neg hb]

/-- **C62**: a class knows the name that it was declared with and its base class, of which its instances are
instances too. -/
theorem name_and_base (hi : HeapInv h) {c : Nat} {cl : Cls} (hc : h.classes[c]? = some cl) :
    invoke constant lib checks "Class" "name" [.cls c] h = some (.ok (.str cl.name), h) ∧
    (cl.base = none → invoke constant lib checks "Class" "base" [.cls c] h = some (.ok .null, h)) ∧
    ∀ b, cl.base = some b → invoke constant lib checks "Class" "base" [.cls c] h = some (.ok (.cls b), h) ∧
      Ancestor h c b ∧ b ≠ c := by
  have e1 : invoke constant lib checks "Class" "name" [.cls c] h =
      some (.ok (((h.classes[c]?).map fun cl => .str cl.name).getD .null), h) := by kernel_rfl
  have e2 : invoke constant lib checks "Class" "base" [.cls c] h =
      some (.ok ((((h.classes[c]?).bind (·.base)).map .cls).getD .null), h) := by kernel_rfl
  rw [e1, e2, hc]
  refine ⟨rfl, fun hb => ?_, fun b hb => ⟨?_, ?_, ?_⟩⟩
  · show some (Outcome.ok ((cl.base.map Value.cls).getD .null), h) = _
    rw [hb]; rfl
  · show some (Outcome.ok ((cl.base.map Value.cls).getD .null), h) = _
    rw [hb]; rfl
  · have := hi.hier c cl hc
    rw [hb] at this
    obtain ⟨-, bl, h2, -⟩ := this
    exact .step hc hb (.refl (List.getElem?_eq_some_iff.mp h2).1)
  · have := hi.hier c cl hc
    rw [hb] at this
    omega

/-! A case: an object with a field set twice, of a class derived from another. -/

def reflectHeap : Heap :=
  let h := (exampleHeap.newObject 1).2
  match h.objects[0]? with
  | some o => ((h.setField o "x" (.int 1)).setField o "y" .null).setField o "x" (.int 2)
  | none => h

example : HeapInv reflectHeap :=
  ((((HeapInv.newObject (by
    have h1 := HeapInv.empty.newRootClass "A"
    have h2 := h1.derive "B" (base := 0) (b := _) rfl
    exact h2.derive "B" (base := 1) rfl) 1).setField _ _ _).setField _ _ _).setField _ _ _ : HeapInv reflectHeap)

example : reflectHeap.classOf (Natives.world lib loader fmod checks debug) (.object 0) = some 1 ∧
    1 < reflectHeap.classes.length ∧ (reflectHeap.classes[1]?).bind (·.base) = some 0 := by
  refine ⟨rfl, by decide, rfl⟩

example : (invoke constant lib checks "Any" "fields" [.object 0] reflectHeap).map (fun r => elements r.2 0) =
    some [.str "x", .str "y"] := by kernel_rfl

end

end Dice
