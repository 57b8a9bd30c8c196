import Verif.SimStatic

/-!
# Values and heaps of the evaluator and of the machine

The values of the reference evaluator and those of the machine differ in the functions that the program makes: the
evaluator has references to closures, the machine bytecode and cells.  `κ` lists the machine's function values in the
order of their creation.
-/

namespace Dice

/-! ## Lists that are related element by element -/

inductive All₂ {α β : Type} (R : α → β → Prop) : List α → List β → Prop where
  | nil : All₂ R [] []
  | cons {a b as bs} (h : R a b) (hs : All₂ R as bs) : All₂ R (a :: as) (b :: bs)

namespace All₂

variable {α β : Type} {R S : α → β → Prop} {as : List α} {bs : List β}

theorem mono (h : All₂ R as bs) (hi : ∀ a b, R a b → S a b) : All₂ S as bs := by
  induction h with
  | nil => exact .nil
  | cons h _ ih => exact .cons (hi _ _ h) ih

theorem length (h : All₂ R as bs) : as.length = bs.length := by
  induction h with
  | nil => rfl
  | cons _ _ ih => simp [ih]

theorem get (h : All₂ R as bs) (i : Nat) : (as[i]? = none ∧ bs[i]? = none) ∨ ∃ a b, as[i]? = some a ∧ bs[i]? = some b ∧ R a b := by
  induction h generalizing i with
  | nil => exact .inl ⟨rfl, rfl⟩
  | @cons a b as bs h _ ih =>
    cases i with
    | zero => exact .inr ⟨a, b, rfl, rfl, h⟩
    | succ i => exact ih i

theorem append {as' : List α} {bs' : List β} (h : All₂ R as bs) (h' : All₂ R as' bs') : All₂ R (as ++ as') (bs ++ bs') := by
  induction h with
  | nil => exact h'
  | cons h _ ih => exact .cons h ih

theorem snoc (h : All₂ R as bs) {a : α} {b : β} (hab : R a b) : All₂ R (as ++ [a]) (bs ++ [b]) := h.append (.cons hab .nil)

theorem set (h : All₂ R as bs) (i : Nat) {a : α} {b : β} (hab : R a b) : All₂ R (as.set i a) (bs.set i b) := by
  induction h generalizing i with
  | nil => exact .nil
  | cons h hs ih =>
    cases i with
    | zero => exact .cons hab hs
    | succ i => exact .cons h (ih i)

theorem modify (h : All₂ R as bs) (i : Nat) {f : α → α} {g : β → β} (hfg : ∀ a b, R a b → R (f a) (g b)) :
    All₂ R (as.modify i f) (bs.modify i g) := by
  induction h generalizing i with
  | nil => simpa using All₂.nil
  | cons h hs ih =>
    cases i with
    | zero => exact .cons (hfg _ _ h) hs
    | succ i => exact .cons h (ih i)

theorem reverse (h : All₂ R as bs) : All₂ R as.reverse bs.reverse := by
  induction h with
  | nil => exact .nil
  | cons h _ ih => rw [List.reverse_cons, List.reverse_cons]; exact ih.snoc h

end All₂

/-! ## Values -/

/-- Values that are the same for the evaluator and the machine. -/
def Value.Plain : Value → Prop
  | .fnBound .. => False
  | .fnClosure _ _ _ [] => False
  | _ => True

/-- A value of the evaluator and the machine's value for it. -/
inductive VRel (κ : List Value) : Value → Value → Prop where
  | plain {v : Value} (h : v.Plain) : VRel κ v v
  | fn {k : Nat} {v : Value} (h : κ[k]? = some v) (hf : v.kind = .function) (hp : v.Plain) : VRel κ (Src.closure k) v
  | bound {r r' f f' : Value} (hr : VRel κ r r') (hf : VRel κ f f') : VRel κ (.fnBound r f) (.fnBound r' f')

theorem VRel.mono {κ κ' : List Value} (hk : κ <+: κ') {s v : Value} (h : VRel κ s v) : VRel κ' s v := by
  induction h with
  | plain h => exact .plain h
  | fn h hf hp => exact .fn (prefix_getElem? hk h) hf hp
  | bound _ _ ihr ihf => exact .bound ihr ihf

/-- What the built-in operators see of a value. -/
def Value.shape : Value → Value
  | .fnScript .. | .fnClosure .. | .fnNative _ | .fnBound .. => .fnNative 0
  | v => v

theorem VRel.shape {κ : List Value} {s v : Value} (h : VRel κ s v) : s.shape = v.shape := by
  cases h with
  | plain h => rfl
  | fn h hf hp => cases v <;> first | rfl | cases hf
  | bound => rfl

theorem VRel.kind {κ : List Value} {s v : Value} (h : VRel κ s v) : s.kind = v.kind := by
  cases h with
  | plain h => rfl
  | fn h hf hp => rw [hf]; rfl
  | bound => rfl

theorem VRel.isNull {κ : List Value} {s v : Value} (h : VRel κ s v) : s.isNull = v.isNull := by
  cases h with
  | plain h => rfl
  | fn h hf hp => cases v <;> first | rfl | cases hf
  | bound => rfl

theorem VRel.bool_iff {κ : List Value} {s v : Value} (h : VRel κ s v) (b : Bool) : s = .bool b ↔ v = .bool b := by
  cases h with
  | plain h => exact Iff.rfl
  | fn h hf hp =>
    constructor
    · intro h; cases h
    · rintro rfl; cases hf
  | bound => constructor <;> intro h <;> cases h

/-- A value that is not a function made by the program. -/
theorem VRel.eq {κ : List Value} {s v : Value} (h : VRel κ s v) (hs : s.shape ≠ .fnNative 0) : s = v := by
  cases h with
  | plain h => rfl
  | fn h hf hp => exact absurd rfl hs
  | bound => exact absurd rfl hs

theorem binDecide_shape (w : World) (o : Opcode) (l r : Value) : binDecide w o l r = binDecide w o l.shape r.shape := by
  cases o <;> cases l <;> cases r <;> rfl

theorem VRel.binDecide {κ : List Value} {l l' r r' : Value} (hl : VRel κ l l') (hr : VRel κ r r') (w : World) (o : Opcode) :
    Dice.binDecide w o l r = Dice.binDecide w o l' r' := by
  rw [binDecide_shape w o l r, binDecide_shape w o l' r', hl.shape, hr.shape]

/-- The values that built-in operators give are plain. -/
theorem binDecide_plain {w : World} {o : Opcode} {l r v : Value} (h : binDecide w o l r = .value v) : v.Plain := by
  unfold binDecide at h
  cases o <;> dsimp only at h <;> (try split at h) <;> (try split at h) <;> cases h <;> trivial

/-! ## Heaps -/

abbrev MapRel (κ : List Value) : ValueMap → ValueMap → Prop := All₂ fun p q => p.1 = q.1 ∧ VRel κ p.2 q.2

structure ArrRel (κ : List Value) (a b : Arr) : Prop where
  elements : All₂ (VRel κ) a.elements b.elements
  object : a.object = b.object

structure ClsRel (κ : List Value) (a b : Cls) : Prop where
  name : a.name = b.name
  methods : MapRel κ a.methods b.methods
  object : a.object = b.object
  typeIds : a.typeIds = b.typeIds
  base : a.base = b.base

structure HeapRel (κ : List Value) (a b : Heap) : Prop where
  maps : All₂ (MapRel κ) a.maps b.maps
  objects : a.objects = b.objects
  arrays : All₂ (ArrRel κ) a.arrays b.arrays
  classes : All₂ (ClsRel κ) a.classes b.classes

theorem MapRel.mono {κ κ' : List Value} (hk : κ <+: κ') {a b : ValueMap} (h : MapRel κ a b) : MapRel κ' a b :=
  All₂.mono h fun _ _ h => ⟨h.1, h.2.mono hk⟩

theorem HeapRel.mono {κ κ' : List Value} (hk : κ <+: κ') {a b : Heap} (h : HeapRel κ a b) : HeapRel κ' a b where
  maps := h.maps.mono fun _ _ h => h.mono hk
  objects := h.objects
  arrays := h.arrays.mono fun _ _ h => ⟨h.elements.mono fun _ _ h => h.mono hk, h.object⟩
  classes := h.classes.mono fun _ _ h => ⟨h.name, h.methods.mono hk, h.object, h.typeIds, h.base⟩

/-- Optional values. -/
inductive ORel (κ : List Value) : Option Value → Option Value → Prop where
  | none : ORel κ none none
  | some {s v : Value} (h : VRel κ s v) : ORel κ (some s) (some v)

theorem MapRel.get {κ : List Value} {a b : ValueMap} (h : MapRel κ a b) (k : String) : ORel κ (a.get k) (b.get k) := by
  unfold ValueMap.get
  induction h with
  | nil => exact .none
  | @cons p q as bs h hs ih =>
    obtain ⟨x, s⟩ := p
    obtain ⟨y, v⟩ := q
    obtain ⟨h1, h2⟩ := h
    cases h1
    simp only [List.lookup_cons]
    split
    · exact .some h2
    · exact ih

theorem MapRel.insert {κ : List Value} {a b : ValueMap} (h : MapRel κ a b) (k : String) {s v : Value} (hv : VRel κ s v) :
    MapRel κ (a.insert k s) (b.insert k v) := .cons ⟨rfl, hv⟩ h

theorem HeapRel.asObject {κ : List Value} {a b : Heap} (h : HeapRel κ a b) {s v : Value} (hv : VRel κ s v) :
    a.asObject s = b.asObject v := by
  have key : ∀ v, a.asObject v = b.asObject v := by
    intro v
    cases v with
    | object o => exact congrArg (·[o]?) h.objects
    | cls c =>
      show Option.map _ a.classes[c]? = Option.map _ b.classes[c]?
      rcases h.classes.get c with ⟨h1, h2⟩ | ⟨x, y, h1, h2, hr⟩
      · rw [h1, h2]
      · rw [h1, h2]; exact congrArg some hr.object
    | array c =>
      show Option.map _ a.arrays[c]? = Option.map _ b.arrays[c]?
      rcases h.arrays.get c with ⟨h1, h2⟩ | ⟨x, y, h1, h2, hr⟩
      · rw [h1, h2]
      · rw [h1, h2]; exact congrArg some hr.object
    | _ => rfl
  cases hv with
  | plain _ => exact key s
  | fn h hf hp => cases v <;> first | rfl | cases hf
  | bound => rfl

theorem HeapRel.field {κ : List Value} {a b : Heap} (h : HeapRel κ a b) (o : Obj) (key : String) :
    ORel κ (a.field o key) (b.field o key) := by
  unfold Heap.field
  rcases h.maps.get o.fields with ⟨h1, h2⟩ | ⟨x, y, h1, h2, hr⟩
  · rw [h1, h2]; exact .none
  · rw [h1, h2]; exact hr.get key

theorem HeapRel.ownField {κ : List Value} {a b : Heap} (h : HeapRel κ a b) (key : String) {s v : Value} (hv : VRel κ s v) :
    ORel κ (a.ownField key s) (b.ownField key v) := by
  unfold Heap.ownField
  rw [h.asObject hv]
  cases b.asObject v with
  | none => exact .none
  | some o => exact h.field o key

theorem HeapRel.classOf {κ : List Value} {a b : Heap} (h : HeapRel κ a b) (w : World) {s v : Value} (hv : VRel κ s v) :
    a.classOf w s = b.classOf w v := by
  unfold Heap.classOf
  rw [h.asObject hv, hv.kind]

theorem HeapRel.method {κ : List Value} {a b : Heap} (h : HeapRel κ a b) (c : Nat) (key : String) :
    ORel κ (a.method c key) (b.method c key) := by
  unfold Heap.method
  rcases h.classes.get c with ⟨h1, h2⟩ | ⟨x, y, h1, h2, hr⟩
  · rw [h1, h2]; exact .none
  · rw [h1, h2]; exact hr.methods.get key

theorem HeapRel.setField {κ : List Value} {a b : Heap} (h : HeapRel κ a b) (o : Obj) (key : String) {s v : Value}
    (hv : VRel κ s v) : HeapRel κ (a.setField o key s) (b.setField o key v) :=
  { h with maps := h.maps.modify _ fun _ _ h => h.insert key hv }

theorem HeapRel.newObject {κ : List Value} {a b : Heap} (h : HeapRel κ a b) (c : Nat) :
    (a.newObject c).1 = (b.newObject c).1 ∧ (a.newObject c).1.Plain ∧ HeapRel κ (a.newObject c).2 (b.newObject c).2 := by
  unfold Heap.newObject Heap.newObj
  refine ⟨by simp only [h.objects], trivial, { h with maps := h.maps.snoc .nil, objects := ?_ }⟩
  simp only [h.objects, h.maps.length]

theorem HeapRel.newArray {κ : List Value} {a b : Heap} (h : HeapRel κ a b) {ss vs : List Value} (hv : All₂ (VRel κ) ss vs) :
    (a.newArray ss).1 = (b.newArray vs).1 ∧ (a.newArray ss).1.Plain ∧ HeapRel κ (a.newArray ss).2 (b.newArray vs).2 := by
  unfold Heap.newArray Heap.newObj
  refine ⟨by simp only [h.arrays.length], trivial, { h with maps := h.maps.snoc .nil, arrays := h.arrays.snoc ⟨hv, ?_⟩ }⟩
  simp only [h.maps.length]

theorem HeapRel.isOfType {κ : List Value} {a b : Heap} (h : HeapRel κ a b) (w : World) (c : Nat) {s v : Value} (hv : VRel κ s v) :
    a.isOfType w s c = b.isOfType w v c := by
  have key : ∀ d, a.isClass d c = b.isClass d c := by
    intro d
    unfold Heap.isClass
    rcases h.classes.get d with ⟨h1, h2⟩ | ⟨x, y, h1, h2, hr⟩
    · rw [h1, h2]
    · rw [h1, h2]
      show x.typeIds.contains c = y.typeIds.contains c
      rw [hr.typeIds]
  unfold Heap.isOfType
  rw [h.classOf w hv]
  cases b.classOf w v with
  | none => rfl
  | some d => exact key d

theorem MapRel.filter {κ : List Value} {a b : ValueMap} (h : MapRel κ a b) (p : String → Bool) :
    MapRel κ (a.filter fun x => p x.1) (b.filter fun x => p x.1) := by
  induction h with
  | nil => exact .nil
  | @cons x y as bs h hs ih =>
    simp only [List.filter_cons, h.1]
    split
    · exact .cons h ih
    · exact ih

theorem HeapRel.setMethod {κ : List Value} {a b : Heap} (h : HeapRel κ a b) (c : Nat) (key : String) {s v : Value}
    (hv : VRel κ s v) : HeapRel κ (a.setMethod c key s) (b.setMethod c key v) :=
  { h with classes := h.classes.modify _ fun _ _ h => { h with methods := h.methods.insert key hv } }

theorem HeapRel.classWithBase {κ : List Value} {a b : Heap} (h : HeapRel κ a b) (name : String) (k : Nat) {c d : Cls}
    (hc : ClsRel κ c d) : (a.classWithBase name k c).1 = (b.classWithBase name k d).1 ∧ (a.classWithBase name k c).1.Plain ∧
      HeapRel κ (a.classWithBase name k c).2 (b.classWithBase name k d).2 := by
  unfold Heap.classWithBase
  refine ⟨by simp only [h.classes.length], trivial, { h with classes := h.classes.snoc ⟨rfl, ?_, ?_, ?_, rfl⟩ }⟩
  · exact hc.methods.filter (· != "new")
  · simp only [hc.object]
  · simp only [hc.typeIds, h.classes.length]

/-! ## Native functions -/

/-- Results of a native function for the evaluator and for the machine. -/
inductive OutRel (κ : List Value) : Outcome Value × Heap → Outcome Value × Heap → Prop where
  | ok {v u : Value} {a b : Heap} (hv : VRel κ v u) (hh : HeapRel κ a b) : OutRel κ (.ok v, a) (.ok u, b)
  | err {e : RtErr} {a b : Heap} : OutRel κ (.err e, a) (.err e, b)
  | panic {s t : String} {a b : Heap} : OutRel κ (.panic s, a) (.panic t, b)

/-- Native functions that do not look into the functions of the program. -/
def NativeRel (w : World) (known : Src.Known) : Prop :=
  ∀ (κ : List Value) (i : Nat) (args args' : List Value) (a b : Heap), known i args = true → All₂ (VRel κ) args args' →
    HeapRel κ a b → OutRel κ (w.native i args a) (w.native i args' b)

/-- Without known native functions nothing is asked of the world. -/
theorem NativeRel.none (w : World) : NativeRel w fun _ _ => false := fun _ _ _ _ _ _ h => by cases h

/-! ## The evaluator's operations on data and the machine's -/

section
variable {κ : List Value} {σ : Src.State} {m : VM} (hh : HeapRel κ σ.heap m.heap)
include hh

theorem fieldOf_rel (w : World) (key : String) {s v : Value} (hv : VRel κ s v) :
    (∃ u u', Src.fieldOf w key s σ = (.ok u, σ) ∧ getField w key v m = (.ok u', m) ∧ VRel κ u u') ∨
      ∃ e, Src.fieldOf w key s σ = (.err e, σ) ∧ getField w key v m = (.err e, m) := by
  unfold Src.fieldOf getField getMethod
  have h1 := hh.ownField key hv
  cases hs : σ.heap.ownField key s with
  | some u =>
    rw [hs] at h1
    cases h2 : m.heap.ownField key v with
    | none => rw [h2] at h1; cases h1
    | some u' =>
      rw [h2] at h1
      cases h1 with
      | some h => exact .inl ⟨u, u', rfl, rfl, h⟩
  | none =>
    rw [hs] at h1
    cases h2 : m.heap.ownField key v with
    | some _ => rw [h2] at h1; cases h1
    | none =>
      by_cases hk : key = "new"
      · simp only [if_pos hk]
        exact .inr ⟨_, rfl, rfl⟩
      · simp only [if_neg hk]
        rw [hh.classOf w hv]
        cases hc : m.heap.classOf w v with
        | none => exact .inl ⟨_, _, rfl, rfl, .plain trivial⟩
        | some c =>
          simp only [Option.bind_some]
          have h3 := hh.method c key
          cases hm : σ.heap.method c key with
          | none =>
            rw [hm] at h3
            cases hm' : m.heap.method c key with
            | some _ => rw [hm'] at h3; cases h3
            | none => exact .inl ⟨_, _, rfl, rfl, .plain trivial⟩
          | some f =>
            rw [hm] at h3
            cases hm' : m.heap.method c key with
            | none => rw [hm'] at h3; cases h3
            | some f' =>
              rw [hm'] at h3
              cases h3 with
              | some h => exact .inl ⟨_, _, rfl, rfl, .bound hv h⟩

theorem setFieldOf_rel (key : String) {o o' s v : Value} (ho : VRel κ o o') (hv : VRel κ s v) :
    (∃ obj h h', Src.setFieldOf key o s σ = (.ok (), { σ with heap := h }) ∧ asObject o' m = (.ok obj, m) ∧
        h' = m.heap.setField obj key v ∧ HeapRel κ h h') ∨
      (Src.setFieldOf key o s σ = (.err .invalidObject, σ) ∧ asObject o' m = (.err .invalidObject, m)) := by
  unfold Src.setFieldOf asObject
  rw [hh.asObject ho]
  cases m.heap.asObject o' with
  | none => exact .inr ⟨rfl, rfl⟩
  | some obj => exact .inl ⟨obj, _, _, rfl, rfl, rfl, hh.setField obj key hv⟩

omit hh in
theorem elementOf_sym (w : World) (t : Value) (key : String) : Src.elementOf w t (.sym key) = Src.fieldOf w key t := by
  cases t <;> rfl

omit hh in
theorem getIndex_sym (w : World) (t : Value) (key : String) : getIndex w t (.sym key) m = getField w key t m := by
  cases t <;> rfl

omit hh in
theorem elementOf_bad (w : World) {t i : Value} (hn : ¬ ∃ a n, t = .array a ∧ i = .int n) (hs : ∀ key, i ≠ .sym key) :
    Src.elementOf w t i σ = (.err .invalidSymbol, σ) := by
  cases t <;> cases i <;> first | rfl | exact absurd rfl (hs _) | exact absurd ⟨_, _, rfl, rfl⟩ hn

omit hh in
theorem getIndex_bad (w : World) {t i : Value} (hn : ¬ ∃ a n, t = .array a ∧ i = .int n) (hs : ∀ key, i ≠ .sym key) :
    getIndex w t i m = (.err .invalidSymbol, m) := by
  cases t <;> cases i <;> first | rfl | exact absurd rfl (hs _) | exact absurd ⟨_, _, rfl, rfl⟩ hn

omit hh in
theorem setElementOf_obj (t i s : Value) : (¬ ∃ a n, t = .array a ∧ i = .int n) →
    Src.setElementOf t i s σ = match σ.heap.asObject t with
      | none => (.err .invalidObject, σ)
      | some obj => match i with
        | .sym key => (.ok (), { σ with heap := σ.heap.setField obj key s })
        | _ => (.err .invalidSymbol, σ) := by
  intro hn
  have h : Src.setElementOf t i s σ = (fun i => match σ.heap.asObject t, i with
        | none, _ => (.err .invalidObject, σ)
        | some obj, .sym key => (.ok (), { σ with heap := σ.heap.setField obj key s })
        | some _, _ => (.err .invalidSymbol, σ)) i := by
    cases t <;> cases i <;> first | rfl | exact absurd ⟨_, _, rfl, rfl⟩ hn
  rw [h]
  clear hn h
  cases σ.heap.asObject t <;> cases i <;> rfl

omit hh in
theorem putIndex_obj (t i v : Value) : (¬ ∃ a n, t = .array a ∧ i = .int n) →
    putIndex t i v m = match m.heap.asObject t with
      | none => (.err .invalidObject, m)
      | some obj => match i with
        | .sym key => (.ok (), { m with heap := m.heap.setField obj key v })
        | _ => (.err .invalidSymbol, m) := by
  intro hn
  have h : putIndex t i v m = (do
        let object ← asObject t
        let field ← asSymbol i
        onHeap fun h => ((), h.setField object field v) : V Unit) m := by
    cases t <;> cases i <;> first | rfl | exact absurd ⟨_, _, rfl, rfl⟩ hn
  rw [h]
  cases ho : m.heap.asObject t with
  | none => exact bind_err (by unfold asObject; rw [ho])
  | some obj =>
    rw [bind_ok (by unfold asObject; rw [ho] : asObject t m = (.ok obj, m))]
    cases i <;> rfl

omit hh in
theorem notIndex_iff {t t' i i' : Value} (ht : VRel κ t t') (hi : VRel κ i i') (h : ¬ ∃ a n, t = .array a ∧ i = .int n) :
    ¬ ∃ a n, t' = .array a ∧ i' = .int n := by
  rintro ⟨a, n, rfl, rfl⟩
  refine h ⟨a, n, ?_, ?_⟩
  · cases ht with
    | plain _ => rfl
    | fn _ hf _ => cases hf
  · cases hi with
    | plain _ => rfl
    | fn _ hf _ => cases hf

omit hh in
theorem notSym_iff {i i' : Value} (hi : VRel κ i i') (h : ∀ key, i ≠ .sym key) : ∀ key, i' ≠ .sym key := by
  rintro key rfl
  cases hi with
  | plain _ => exact h _ rfl
  | fn _ hf _ => cases hf

theorem elementOf_rel (w : World) {t t' i i' : Value} (ht : VRel κ t t') (hi : VRel κ i i') :
    (∃ u u', Src.elementOf w t i σ = (.ok u, σ) ∧ getIndex w t' i' m = (.ok u', m) ∧ VRel κ u u') ∨
      (∃ e, Src.elementOf w t i σ = (.err e, σ) ∧ getIndex w t' i' m = (.err e, m)) ∨
      Src.elementOf w t i σ = (.stuck, σ) := by
  by_cases hc : ∃ a n, t = .array a ∧ i = .int n
  · obtain ⟨a, n, rfl, rfl⟩ := hc
    have h1 : t' = .array a := (ht.eq (by simp [Value.shape])).symm
    have h2 : i' = .int n := (hi.eq (by simp [Value.shape])).symm
    subst h1 h2
    rcases hh.arrays.get a with ⟨e1, e2⟩ | ⟨x, y, e1, e2, hr⟩
    · refine .inr (.inr ?_)
      show (match σ.heap.arrays[a]? with | some arr => _ | none => _) = _
      rw [e1]
    · have e3 : Src.elementOf w (.array a) (.int n) σ = match σ.heap.arrays[a]? with
          | some arr => (.ok (if 0 ≤ n then arr.elements[n.toNat]?.getD .null else .null), σ)
          | none => (.stuck, σ) := rfl
      have e4 : getIndex w (.array a) (.int n) m = match m.heap.arrays[a]? with
          | some arr => (.ok (if 0 ≤ n then arr.elements[n.toNat]?.getD .null else .null), m)
          | none => (.panic "dangling array", m) := rfl
      rw [e1] at e3
      rw [e2] at e4
      refine .inl ⟨_, _, e3, e4, ?_⟩
      split
      · rcases hr.elements.get n.toNat with ⟨e1, e2⟩ | ⟨x, y, e1, e2, hr⟩
        · rw [e1, e2]; exact .plain trivial
        · rw [e1, e2]; exact hr
      · exact .plain trivial
  · by_cases hsym : ∃ key, i = .sym key
    · obtain ⟨key, rfl⟩ := hsym
      have hi' : i' = .sym key := (hi.eq (by simp [Value.shape])).symm
      subst hi'
      rw [elementOf_sym, getIndex_sym]
      rcases fieldOf_rel hh w key ht with h | h
      · exact .inl h
      · exact .inr (.inl h)
    · have hs : ∀ key, i ≠ .sym key := fun key h => hsym ⟨key, h⟩
      exact .inr (.inl ⟨_, elementOf_bad w hc hs, getIndex_bad w (notIndex_iff ht hi hc) (notSym_iff hi hs)⟩)

theorem setElementOf_rel {t t' i i' s v : Value} (ht : VRel κ t t') (hi : VRel κ i i') (hv : VRel κ s v) :
    (∃ h h', Src.setElementOf t i s σ = (.ok (), { σ with heap := h }) ∧
        putIndex t' i' v m = (.ok (), { m with heap := h' }) ∧ HeapRel κ h h') ∨
      (∃ e, Src.setElementOf t i s σ = (.err e, σ) ∧ putIndex t' i' v m = (.err e, m)) ∨
      (∃ msg, Src.setElementOf t i s σ = (.abort, σ) ∧ putIndex t' i' v m = (.panic msg, m)) ∨
      Src.setElementOf t i s σ = (.stuck, σ) := by
  by_cases hc : ∃ a n, t = .array a ∧ i = .int n
  · obtain ⟨a, n, rfl, rfl⟩ := hc
    have h1 : t' = .array a := (ht.eq (by simp [Value.shape])).symm
    have h2 : i' = .int n := (hi.eq (by simp [Value.shape])).symm
    subst h1 h2
    have e0 : Src.setElementOf (.array a) (.int n) s σ = match σ.heap.arrays[a]? with
        | some arr => if 0 ≤ n ∧ n.toNat < arr.elements.length then
            (.ok (), { σ with heap := { σ.heap with
              arrays := σ.heap.arrays.set a { arr with elements := arr.elements.set n.toNat s } } })
          else (.abort, σ)
        | none => (.stuck, σ) := rfl
    have e0' : putIndex (.array a) (.int n) v m = match m.heap.arrays[a]? with
        | some arr => if 0 ≤ n ∧ n.toNat < arr.elements.length then
            (.ok (), { m with heap := { m.heap with
              arrays := m.heap.arrays.set a { arr with elements := arr.elements.set n.toNat v } } })
          else (.panic "index out of bounds", m)
        | none => (.panic "dangling array", m) := rfl
    rw [e0, e0']
    rcases hh.arrays.get a with ⟨e1, e2⟩ | ⟨x, y, e1, e2, hr⟩
    · rw [e1]; exact .inr (.inr (.inr rfl))
    · rw [e1, e2]
      dsimp only
      have hl := hr.elements.length
      by_cases hb : 0 ≤ n ∧ n.toNat < x.elements.length
      · rw [if_pos hb, if_pos (by omega)]
        exact .inl ⟨_, _, rfl, rfl, { hh with arrays := hh.arrays.set a ⟨hr.elements.set _ hv, hr.object⟩ }⟩
      · rw [if_neg hb, if_neg (by omega)]
        exact .inr (.inr (.inl ⟨_, rfl, rfl⟩))
  · rw [setElementOf_obj _ _ s hc, putIndex_obj _ _ v (notIndex_iff ht hi hc), hh.asObject ht]
    cases ho : m.heap.asObject t' with
    | none => exact .inr (.inl ⟨_, rfl, rfl⟩)
    | some obj =>
      by_cases hsym : ∃ key, i = .sym key
      · obtain ⟨key, rfl⟩ := hsym
        have hi' : i' = .sym key := (hi.eq (by simp [Value.shape])).symm
        subst hi'
        exact .inl ⟨_, _, rfl, rfl, hh.setField obj key hv⟩
      · have hs : ∀ key, i ≠ .sym key := fun key h => hsym ⟨key, h⟩
        have hs' := notSym_iff hi hs
        refine .inr (.inl ⟨.invalidSymbol, ?_, ?_⟩)
        · cases i <;> first | rfl | exact absurd rfl (hs _)
        · cases i' <;> first | rfl | exact absurd rfl (hs' _)

end

end Dice
