import Verif.NativeHeap

/-! # C57, C58: arrays and their iterators; functions that call back -/

namespace Dice

namespace Natives

theorem elements_modify (h : Heap) (a b : Nat) (f : Arr → Arr) :
    elements { h with arrays := h.arrays.modify a f } b =
      if a = b then ((h.arrays[b]?).map fun arr => (f arr).elements).getD [] else elements h b := by
  unfold elements
  show (((h.arrays.modify a f)[b]?).map _).getD [] = _
  rw [List.getElem?_modify]
  split
  · cases h.arrays[b]? <;> rfl
  · cases h.arrays[b]? <;> rfl

theorem elements_push (h : Heap) {a : Nat} (ha : a < h.arrays.length) (v : Value) (b : Nat) :
    elements (pushElement h a v) b = if a = b then elements h a ++ [v] else elements h b := by
  unfold pushElement
  rw [elements_modify]
  split
  · next e =>
    subst e
    unfold elements
    rw [List.getElem?_eq_getElem ha]
    rfl
  · rfl

theorem elements_pop (h : Heap) (a b : Nat) :
    elements (popElement h a) b = if a = b then (elements h a).dropLast else elements h b := by
  unfold popElement
  rw [elements_modify]
  split
  · next e =>
    subst e
    unfold elements
    cases h.arrays[a]? <;> rfl
  · rfl

theorem elements_newArray (h : Heap) (xs : List Value) (b : Nat) :
    elements (h.newArray xs).2 b = if b = h.arrays.length then xs else elements h b := by
  unfold elements
  show (((h.arrays ++ [(⟨xs, _⟩ : Arr)])[b]?).map _).getD [] = _
  rw [List.getElem?_append]
  split
  · next hl => rw [if_neg (by omega)]
  · next hl =>
    split
    · next e => subst e; simp
    · next e =>
      rw [List.getElem?_eq_none (l := [_]) (by simp; omega), List.getElem?_eq_none (by omega)]

theorem elements_arrays {h h' : Heap} (e : h'.arrays = h.arrays) (b : Nat) : elements h' b = elements h b := by
  unfold elements
  rw [e]

end Natives

open Natives

section

variable {constant : String → Float} {lib : FloatLib} {checks : Bool} (h : Heap)

/-! ## C57: arrays -/

/-- **C57**: `Array(x, …)` is a new array of the arguments, other arrays are as before. -/
theorem array_new (c : Value) (xs : List Value) : ∃ a h',
    invoke constant lib checks "Array" "new" (c :: xs) h = some (.ok (.array a), h') ∧
    a = h.arrays.length ∧ elements h' a = xs ∧ ∀ b, b ≠ a → elements h' b = elements h b := by
  refine ⟨_, (h.newArray xs).2, by kernel_rfl, rfl, ?_, ?_⟩
  · rw [elements_newArray, if_pos rfl]
  · intro b hb
    rw [elements_newArray, if_neg hb]

/-- **C57**: `array.push(v)` appends `v` to this array and changes no other. -/
theorem array_push {a : Nat} (ha : a < h.arrays.length) (v : Value) : ∃ h',
    invoke constant lib checks "Array" "push" [.array a, v] h = some (.ok .unit, h') ∧
    elements h' a = elements h a ++ [v] ∧ ∀ b, b ≠ a → elements h' b = elements h b := by
  refine ⟨pushElement h a v, by kernel_rfl, ?_, ?_⟩
  · rw [elements_push h ha, if_pos rfl]
  · intro b hb
    rw [elements_push h ha, if_neg (Ne.symm hb)]

/-- **C57**: `array.pop()` takes off the last element and gives it; on an empty array it gives the unit
value. -/
theorem array_pop (a : Nat) : ∃ r h',
    invoke constant lib checks "Array" "pop" [.array a] h = some (.ok r, h') ∧
    (∀ xs x, elements h a = xs ++ [x] → r = x ∧ elements h' a = xs) ∧
    (elements h a = [] → r = .unit ∧ elements h' a = []) ∧ ∀ b, b ≠ a → elements h' b = elements h b := by
  refine ⟨(elements h a).getLast?.getD .unit, popElement h a, by kernel_rfl, ?_, ?_, ?_⟩
  · intro xs x he
    rw [elements_pop, if_pos rfl, he]
    simp
  · intro he
    rw [elements_pop, if_pos rfl, he]
    simp
  · intro b hb
    rw [elements_pop, if_neg (Ne.symm hb)]

/-- **C57**: `array.length()` is the number of elements. -/
theorem array_length (a : Nat) :
    invoke constant lib checks "Array" "length" [.array a] h = some (.ok (.int (elements h a).length), h) := by
  kernel_rfl

/-- **C57**: `array.first()` is the first element, `null` if there is none. -/
theorem array_first (a : Nat) :
    (∀ x xs, elements h a = x :: xs → invoke constant lib checks "Array" "first" [.array a] h = some (.ok x, h)) ∧
    (elements h a = [] → invoke constant lib checks "Array" "first" [.array a] h = some (.ok .null, h)) := by
  have : invoke constant lib checks "Array" "first" [.array a] h =
      some (.ok ((elements h a).head?.getD .null), h) := by kernel_rfl
  rw [this]
  refine ⟨fun x xs he => ?_, fun he => ?_⟩ <;> rw [he] <;> rfl

/-- **C57**: what was pushed last is popped first, and then the array is as before. -/
theorem pop_push {a : Nat} (ha : a < h.arrays.length) (v : Value) : ∃ h1 h2,
    invoke constant lib checks "Array" "push" [.array a, v] h = some (.ok .unit, h1) ∧
    invoke constant lib checks "Array" "pop" [.array a] h1 = some (.ok v, h2) ∧
    ∀ b, elements h2 b = elements h b := by
  obtain ⟨h1, e1, e2, e3⟩ := array_push (constant := constant) (lib := lib) (checks := checks) h ha v
  obtain ⟨r, h2, f1, f2, -, f3⟩ := array_pop (constant := constant) (lib := lib) (checks := checks) h1 a
  obtain ⟨rfl, f4⟩ := f2 _ _ e2
  refine ⟨h1, h2, e1, f1, fun b => ?_⟩
  by_cases hb : b = a
  · subst hb; exact f4
  · rw [f3 b hb, e3 b hb]

example : ∃ h : Heap, 0 < h.arrays.length ∧ elements h 0 = [.int 1, .int 2] :=
  ⟨(({} : Heap).newArray [.int 1, .int 2]).2, by decide, rfl⟩

end

/-! ## C57: iterators of arrays -/

namespace Natives

/-- The native function `n` is the iterator of the array `a` and has given its first `i` elements. -/
def IterAt (h : Heap) (n a i : Nat) : Prop :=
  registered.length ≤ n ∧ n - registered.length < h.arrays.length ∧ n - registered.length ≠ a ∧
    elements h (n - registered.length) = [.array a, .int i]

theorem ownField_setField (h : Heap) (o : Nat) (obj : Obj) (ho : h.objects[o]? = some obj)
    (hm : obj.fields < h.maps.length) (k key : String) (v : Value) :
    (h.setField obj key v).ownField k (.object o) = if k = key then some v else h.ownField k (.object o) := by
  unfold Heap.ownField
  show (match h.objects[o]? with
    | some ob => (h.setField obj key v).field ob k
    | none => none) = _
  rw [show h.asObject (.object o) = h.objects[o]? from rfl, ho]
  show ((h.maps.modify obj.fields _)[obj.fields]?).bind _ = if k = key then some v else ((h.maps)[obj.fields]?).bind _
  rw [List.getElem?_modify, List.getElem?_eq_getElem hm]
  simp only [↓reduceIte, Option.map_eq_map, Option.map_some, Option.bind_some]
  rw [ValueMap.get_insert]

end Natives

section

variable {constant : String → Float} {lib : FloatLib} {checks : Bool} (h : Heap)

/-- **C57**: `array.iter()` is an object whose `next` is an iterator at the start of the array; arrays are as
before. -/
theorem array_iter {a : Nat} (ha : a < h.arrays.length) : ∃ o n h',
    invoke constant lib checks "Array" "iter" [.array a] h = some (.ok (.object o), h') ∧
    h'.ownField "next" (.object o) = some (.fnNative n) ∧ IterAt h' n a 0 ∧
    ∀ b, b < h.arrays.length → elements h' b = elements h b := by
  let h1 := (h.newArray [.array a, .int 0]).2
  let h2 := (h1.newObject anyClass).2
  have ho : h2.objects[h1.objects.length]? = some ⟨some anyClass, h1.maps.length⟩ := by
    simp [h2, Heap.newObject, Heap.newObj]
  have hm : h1.maps.length < h2.maps.length := by
    simp [h2, Heap.newObject, Heap.newObj]
  refine ⟨h1.objects.length, registered.length + h.arrays.length,
    h2.setField ⟨some anyClass, h1.maps.length⟩ "next" (.fnNative (registered.length + h.arrays.length)), ?_, ?_, ?_, ?_⟩
  · have : invoke constant lib checks "Array" "iter" [.array a] h =
        some (match h2.objects[h1.objects.length]? with
          | some obj => (.ok (.object h1.objects.length),
              h2.setField obj "next" (.fnNative (registered.length + h.arrays.length)))
          | none => (.panic "unreachable", h2)) := by kernel_rfl
    rw [this, ho]
  · rw [ownField_setField h2 _ _ ho hm, if_pos rfl]
  · refine ⟨by omega, ?_, ?_, ?_⟩
    · show _ < h1.arrays.length
      simp [h1, Heap.newArray, Heap.newObj]
    · omega
    · rw [show registered.length + h.arrays.length - registered.length = h.arrays.length by omega]
      show elements h1 h.arrays.length = _
      rw [show h1 = (h.newArray [.array a, .int 0]).2 from rfl, elements_newArray, if_pos rfl]
      rfl
  · intro b hb
    show elements h1 b = _
    rw [show h1 = (h.newArray [.array a, .int 0]).2 from rfl, elements_newArray, if_neg (by omega)]

/-- **C57**: a call of the iterator of `a` that has given `i` elements gives the element `i`, as the array
is now, and moves on; or says that it is done, if there are no more. -/
theorem iter_next {n a i : Nat} (hi : IterAt h n a i) (args : List Value) : ∃ o h',
    native lib checks n args h = (.ok (.object o), h') ∧
    (∀ b, b ≠ n - registered.length → elements h' b = elements h b) ∧
    (∀ x, (elements h a)[i]? = some x → h'.ownField "value" (.object o) = some x ∧
      h'.ownField "is_done" (.object o) = some (.bool false) ∧ IterAt h' n a (i + 1)) ∧
    ((elements h a)[i]? = none → h'.ownField "is_done" (.object o) = some (.bool true) ∧ IterAt h' n a i) := by
  obtain ⟨h1, h2, h3, h4⟩ := hi
  have hn : native lib checks n args h = next (n - registered.length) h := by
    unfold native
    rw [List.getElem?_eq_none h1]
  rw [hn]
  generalize hc : n - registered.length = cell at *
  let hO := (h.newObject anyClass).2
  have ho : hO.objects[h.objects.length]? = some ⟨some anyClass, h.maps.length⟩ := by
    simp [hO, Heap.newObject, Heap.newObj]
  have hm : h.maps.length < hO.maps.length := by
    simp [hO, Heap.newObject, Heap.newObj]
  have hm' : ∀ k v, h.maps.length < (hO.setField ⟨some anyClass, h.maps.length⟩ k v).maps.length := by
    intro k v
    simp [Heap.setField, hm]
  have hnext : next cell h = match (elements h a)[i]? with
      | some x => (.ok (.object h.objects.length),
          { (hO.setField ⟨some anyClass, h.maps.length⟩ "value" x).setField ⟨some anyClass, h.maps.length⟩ "is_done"
              (.bool false) with
            arrays := h.arrays.modify cell fun c => { c with elements := [.array a, .int (i + 1)] } })
      | none => (.ok (.object h.objects.length), hO.setField ⟨some anyClass, h.maps.length⟩ "is_done" (.bool true)) := by
    unfold next
    rw [h4]
    dsimp only
    rw [show (h.newObject anyClass).2.objects[h.objects.length]? = some ⟨some anyClass, h.maps.length⟩ from ho]
    rfl
  rw [hnext]
  cases he : (elements h a)[i]? with
  | some x =>
    refine ⟨_, _, rfl, ?_, ?_, fun h => nomatch h⟩
    · intro b hb
      refine (elements_modify h cell b _).trans ?_
      rw [if_neg (Ne.symm hb)]
    · intro y hy
      cases hy
      refine ⟨?_, ?_, h1, ?_, hc ▸ h3, ?_⟩
      · refine (ownField_setField (hO.setField ⟨some anyClass, h.maps.length⟩ "value" x) _ _ ho (hm' _ _)
          "value" "is_done" (.bool false)).trans ?_
        rw [if_neg (by decide), ownField_setField hO _ _ ho hm, if_pos rfl]
      · refine (ownField_setField (hO.setField ⟨some anyClass, h.maps.length⟩ "value" x) _ _ ho (hm' _ _)
          "is_done" "is_done" (.bool false)).trans ?_
        rw [if_pos rfl]
      · rw [hc]
        show _ < (h.arrays.modify cell _).length
        rw [List.length_modify]
        exact h2
      · rw [hc]
        refine (elements_modify h cell cell _).trans ?_
        rw [if_pos rfl, List.getElem?_eq_getElem h2]
        rfl
  | none =>
    refine ⟨_, _, rfl, fun b _ => rfl, (fun x hx => nomatch hx), fun _ => ⟨?_, h1, ?_, hc ▸ h3, ?_⟩⟩
    · rw [ownField_setField hO _ _ ho hm, if_pos rfl]
    · rw [hc]
      exact h2
    · rw [hc]
      exact h4

/-- Calling the native function `n` until it is done gives the values `xs`. -/
inductive Yields (lib : FloatLib) (checks : Bool) (n : Nat) : Heap → List Value → Heap → Prop where
  | done {h h' : Heap} {o : Nat} (hr : native lib checks n [] h = (.ok (.object o), h'))
      (hd : h'.ownField "is_done" (.object o) = some (.bool true)) : Yields lib checks n h [] h'
  | more {h h' h'' : Heap} {o : Nat} {x : Value} {xs : List Value}
      (hr : native lib checks n [] h = (.ok (.object o), h'))
      (hd : h'.ownField "is_done" (.object o) = some (.bool false))
      (hv : h'.ownField "value" (.object o) = some x) (rest : Yields lib checks n h' xs h'') :
      Yields lib checks n h (x :: xs) h''

/-- **C57**: an iterator that has given `i` elements gives the others, each once and in order, and then is
done for good. -/
theorem iter_yields {n a i : Nat} (hi : IterAt h n a i) :
    ∃ h', Yields lib checks n h ((elements h a).drop i) h' ∧ IterAt h' n a (max i (elements h a).length) ∧
      ∀ b, b ≠ n - registered.length → elements h' b = elements h b := by
  induction hk : (elements h a).length - i generalizing h i with
  | zero =>
    obtain ⟨o, h', e1, e2, -, e3⟩ := iter_next (lib := lib) (checks := checks) h hi []
    obtain ⟨e4, e5⟩ := e3 (List.getElem?_eq_none (by omega))
    rw [List.drop_eq_nil_of_le (by omega), Nat.max_eq_left (by omega)]
    exact ⟨h', .done e1 e4, e5, e2⟩
  | succ k ih =>
    obtain ⟨o, h', e1, e2, e3, -⟩ := iter_next (lib := lib) (checks := checks) h hi []
    have hlt : i < (elements h a).length := by omega
    obtain ⟨e4, e5, e6⟩ := e3 _ (List.getElem?_eq_getElem hlt)
    have hsame : elements h' a = elements h a := e2 a (Ne.symm hi.2.2.1)
    obtain ⟨h'', f1, f2, f3⟩ := ih h' e6 (by rw [hsame]; omega)
    rw [hsame] at f1 f2
    rw [List.drop_eq_getElem_cons hlt]
    rw [show max (i + 1) (elements h a).length = max i (elements h a).length by omega] at f2
    exact ⟨h'', .more e1 e5 e4 f1, f2, fun b hb => (f3 b hb).trans (e2 b hb)⟩

/-- **C57**: iterating over an array gives its elements. -/
theorem array_iterates {a : Nat} (ha : a < h.arrays.length) : ∃ o n h1 h2,
    invoke constant lib checks "Array" "iter" [.array a] h = some (.ok (.object o), h1) ∧
    h1.ownField "next" (.object o) = some (.fnNative n) ∧ Yields lib checks n h1 (elements h a) h2 := by
  obtain ⟨o, n, h1, e1, e2, e3, e4⟩ := array_iter (constant := constant) (lib := lib) (checks := checks) h ha
  obtain ⟨h2, f1, -, -⟩ := iter_yields (lib := lib) (checks := checks) h1 e3
  rw [e4 a ha] at f1
  exact ⟨o, n, h1, h2, e1, e2, f1⟩

end

/-! ## C58: functions that call back -/

namespace Natives

variable {σ : Type} {call : Value → σ → Outcome Value × σ}

/-- Calling back on `xs` one after the other gives the outcomes `os`. -/
inductive Threads (call : Value → σ → Outcome Value × σ) : List Value → σ → List (Outcome Value) → σ → Prop where
  | nil {s : σ} : Threads call [] s [] s
  | cons {x : Value} {xs : List Value} {s s' s'' : σ} {o : Outcome Value} {os : List (Outcome Value)}
      (h : call x s = (o, s')) (rest : Threads call xs s' os s'') : Threads call (x :: xs) s (o :: os) s''

/-- The callback came back, with a value or an error. -/
def Settled : Outcome Value → Prop
  | .ok _ => True
  | .err _ => True
  | _ => False

/-- The callback answered `true`. -/
def yes : Outcome Value → Bool
  | .ok (.bool true) => true
  | _ => false

/-- The value of the callback; `null` in place of an error. -/
def valueOrNull : Outcome Value → Value
  | .ok v => v
  | _ => .null

theorem truth_settled {o : Outcome Value} {b : Bool} : truth o = .ok b ↔ Settled o ∧ b = yes o := by
  cases o with
  | ok v =>
    cases v <;> simp [truth, Settled, yes, eq_comm]
    next b' => cases b' <;> cases b <;> simp
  | err e => simp [truth, Settled, yes, eq_comm]
  | panic m => simp [truth, Settled]
  | timeout => simp [truth, Settled]

theorem orNull_settled {o : Outcome Value} {v : Value} : orNull o = .ok v ↔ Settled o ∧ v = valueOrNull o := by
  cases o <;> simp [orNull, Settled, valueOrNull, eq_comm]

theorem truth_no_err (o : Outcome Value) (e : RtErr) : truth o ≠ .err e := by
  cases o with
  | ok v => cases v <;> simp [truth]
  | _ => simp [truth]

end Natives

section

variable {σ : Type} {call : Value → σ → Outcome Value × σ}

/-- **C58**: `array.map(f)` calls `f` on each element, in order, and gives the results; an error of `f`
becomes `null`. -/
theorem map_exact (xs ys : List Value) (s s' : σ) : Natives.map call xs s = (.ok ys, s') ↔
    ∃ os, Threads call xs s os s' ∧ (∀ o ∈ os, Settled o) ∧ ys = os.map valueOrNull := by
  induction xs generalizing s ys with
  | nil =>
    constructor
    · intro he
      cases he
      exact ⟨[], .nil, (fun o ho => nomatch ho), rfl⟩
    · rintro ⟨os, ht, -, rfl⟩
      cases ht
      rfl
  | cons x xs ih =>
    unfold Natives.map
    constructor
    · intro he
      split at he
      · next y hy =>
        obtain ⟨h1, rfl⟩ := orNull_settled.mp hy
        cases hr : Natives.map call xs (call x s).2 with
        | mk r s1 =>
          rw [hr] at he
          cases r with
          | ok ys' =>
            simp only [andThen, Prod.mk.injEq, Outcome.ok.injEq] at he
            obtain ⟨rfl, rfl⟩ := he
            obtain ⟨os, t1, t2, rfl⟩ := (ih ys' _).mp hr
            refine ⟨(call x s).1 :: os, .cons rfl t1, ?_, rfl⟩
            intro o ho
            rcases List.mem_cons.mp ho with rfl | ho
            · exact h1
            · exact t2 o ho
          | _ => simp [andThen] at he
      · cases he
      · cases he
      · cases he
    · rintro ⟨os, ht, hs, rfl⟩
      cases ht with
      | @cons _ _ _ s1 _ o os h1 t1 =>
        have := orNull_settled.mpr ⟨hs o (by simp), rfl⟩
        rw [show (call x s).1 = o by rw [h1], this]
        simp only
        rw [show (call x s).2 = s1 by rw [h1], (ih (os.map valueOrNull) s1).mpr ⟨os, t1, fun o ho => hs o (by simp [ho]), rfl⟩]
        rfl

/-- **C58**: the result of `map` has as many elements as the array. -/
theorem map_length {xs ys : List Value} {s s' : σ} (h : Natives.map call xs s = (.ok ys, s')) :
    ys.length = xs.length := by
  obtain ⟨os, ht, -, rfl⟩ := (map_exact xs ys s s').mp h
  clear h
  induction ht with
  | nil => rfl
  | cons _ _ ih => simpa using ih

/-- **C58**: `array.filter(p)` calls `p` on each element, in order, and keeps those on which `p` gave `true`;
an error of `p`, or a result that is not a boolean, counts as `false`. -/
theorem filter_exact (xs ys : List Value) (s s' : σ) : Natives.filter call xs s = (.ok ys, s') ↔
    ∃ os, Threads call xs s os s' ∧ (∀ o ∈ os, Settled o) ∧
      ys = ((xs.zip os).filter fun p => yes p.2).map (·.1) := by
  induction xs generalizing s ys with
  | nil =>
    constructor
    · intro he
      cases he
      exact ⟨[], .nil, (fun o ho => nomatch ho), rfl⟩
    · rintro ⟨os, ht, -, rfl⟩
      cases ht
      rfl
  | cons x xs ih =>
    unfold Natives.filter
    constructor
    · intro he
      split at he
      · next b hb =>
        obtain ⟨h1, rfl⟩ := truth_settled.mp hb
        cases hr : Natives.filter call xs (call x s).2 with
        | mk r s1 =>
          rw [hr] at he
          cases r with
          | ok ys' =>
            simp only [andThen, Prod.mk.injEq, Outcome.ok.injEq] at he
            obtain ⟨rfl, rfl⟩ := he
            obtain ⟨os, t1, t2, rfl⟩ := (ih ys' _).mp hr
            refine ⟨(call x s).1 :: os, .cons rfl t1, ?_, ?_⟩
            · intro o ho
              rcases List.mem_cons.mp ho with rfl | ho
              · exact h1
              · exact t2 o ho
            · rw [List.zip_cons_cons, List.filter_cons]
              split <;> simp [*]
          | _ => simp [andThen] at he
      · cases he
      · cases he
      · cases he
    · rintro ⟨os, ht, hs, rfl⟩
      cases ht with
      | @cons _ _ _ s1 _ o os h1 t1 =>
        have := truth_settled.mpr ⟨hs o (by simp), rfl⟩
        rw [show (call x s).1 = o by rw [h1], this]
        simp only
        rw [show (call x s).2 = s1 by rw [h1], (ih _ s1).mpr ⟨os, t1, fun o ho => hs o (by simp [ho]), rfl⟩]
        rw [List.zip_cons_cons, List.filter_cons]
        cases hy : yes o <;> simp [andThen]

/-- **C58**: `array.first(p)` calls `p` on the elements up to the first on which it gives `true`, and gives
that element, or `null` if there is none. -/
theorem first_exact (xs : List Value) (r : Value) (s s' : σ) : Natives.first call xs s = (.ok r, s') ↔
    (∃ pre post os, xs = pre ++ r :: post ∧ Threads call (pre ++ [r]) s (os ++ [.ok (.bool true)]) s' ∧
      os.length = pre.length ∧ ∀ o ∈ os, Settled o ∧ yes o = false) ∨
    (r = .null ∧ ∃ os, Threads call xs s os s' ∧ ∀ o ∈ os, Settled o ∧ yes o = false) := by
  induction xs generalizing s with
  | nil =>
    constructor
    · intro he
      cases he
      exact .inr ⟨rfl, [], .nil, fun o ho => nomatch ho⟩
    · rintro (⟨pre, post, os, he, -⟩ | ⟨rfl, os, ht, -⟩)
      · cases pre <;> cases he
      · cases ht
        rfl
  | cons x xs ih =>
    unfold Natives.first
    constructor
    · intro he
      split at he
      · next hb =>
        cases he
        obtain ⟨h1, h2⟩ := truth_settled.mp hb
        have h3 : (call r s).1 = .ok (.bool true) := by
          revert h2
          cases (call r s).1 with
          | ok v =>
            cases v <;> simp [yes]
            next b => cases b <;> simp
          | _ => simp [yes]
        refine .inl ⟨[], xs, [], rfl, ?_, rfl, (fun o ho => nomatch ho)⟩
        exact .cons (s' := (call r s).2) (by rw [← h3]) .nil
      · next hb =>
        obtain ⟨h1, h2⟩ := truth_settled.mp hb
        rcases (ih _).mp he with ⟨pre, post, os, rfl, ht, hl, hn⟩ | ⟨rfl, os, ht, hn⟩
        · refine .inl ⟨x :: pre, post, (call x s).1 :: os, rfl, .cons rfl ht, by simp [hl], ?_⟩
          intro o ho
          rcases List.mem_cons.mp ho with rfl | ho
          · exact ⟨h1, h2.symm⟩
          · exact hn o ho
        · refine .inr ⟨rfl, (call x s).1 :: os, .cons rfl ht, ?_⟩
          intro o ho
          rcases List.mem_cons.mp ho with rfl | ho
          · exact ⟨h1, h2.symm⟩
          · exact hn o ho
      · cases he
      · cases he
      · cases he
    · rintro (⟨pre, post, os, he, ht, hl, hn⟩ | ⟨rfl, os, ht, hn⟩)
      · cases pre with
        | nil =>
          cases he
          cases os with
          | cons _ _ => cases hl
          | nil =>
            cases ht with
            | cons h1 t1 =>
              cases t1
              rw [h1]
              rfl
        | cons y pre =>
          cases he
          cases os with
          | nil => cases hl
          | cons o os =>
            cases ht with
            | @cons _ _ _ s1 _ _ _ h1 t1 =>
              have := hn o (by simp)
              rw [h1, truth_settled.mpr ⟨this.1, this.2.symm⟩]
              exact (ih s1).mpr (.inl ⟨pre, post, os, rfl, t1, by simpa using hl, fun o ho => hn o (by simp [ho])⟩)
      · cases ht with
        | @cons _ _ _ s1 _ o os h1 t1 =>
          have := hn o (by simp)
          rw [h1, truth_settled.mpr ⟨this.1, this.2.symm⟩]
          exact (ih s1).mpr (.inr ⟨rfl, os, t1, fun o ho => hn o (by simp [ho])⟩)

/-- **C58**: an error of the callback never is an error of `map`, `filter` or `first`. -/
theorem callbacks_swallow_errors (xs : List Value) (s : σ) (e : RtErr) :
    (Natives.map call xs s).1 ≠ .err e ∧ (Natives.filter call xs s).1 ≠ .err e ∧ (Natives.first call xs s).1 ≠ .err e := by
  induction xs generalizing s with
  | nil => exact ⟨nofun, nofun, nofun⟩
  | cons x xs ih =>
    obtain ⟨i1, i2, i3⟩ := ih (call x s).2
    refine ⟨?_, ?_, ?_⟩
    · unfold Natives.map
      split
      · cases hr : Natives.map call xs (call x s).2 with
        | mk r s1 =>
          rw [hr] at i1
          cases r with
          | err e' => intro h; apply i1; simpa [andThen] using h
          | _ => intro h; simp [andThen] at h
      · next h => cases ho : (call x s).1 <;> rw [ho] at h <;> cases h
      · nofun
      · nofun
    · unfold Natives.filter
      split
      · cases hr : Natives.filter call xs (call x s).2 with
        | mk r s1 =>
          rw [hr] at i2
          cases r with
          | err e' => intro h; apply i2; simpa [andThen] using h
          | _ => intro h; simp [andThen] at h
      · next h => exact absurd h (truth_no_err _ _)
      · nofun
      · nofun
    · unfold Natives.first
      split
      · nofun
      · exact i3
      · next h => exact absurd h (truth_no_err _ _)
      · nofun
      · nofun

/-- A callback that counts its calls, fails on 0 and else asks whether the number is positive. -/
example : Natives.filter (σ := Nat) (fun v s => match v with
      | .int 0 => (.err .invalidObject, s + 1)
      | .int n => (.ok (.bool (decide (0 < n))), s + 1)
      | _ => (.ok .null, s + 1)) [.int 3, .int 0, .int (-1), .unit, .int 5] 0 = (.ok [.int 3, .int 5], 5) := by
  rfl

end

end Dice
