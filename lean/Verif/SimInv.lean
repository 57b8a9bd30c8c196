import Verif.SimVal
import Verif.Steps
import Verif.CaptureProps

/-!
# The invariant between the evaluator and the machine

`Λ` gives the location of the variable that lives at a position of the stack, and `μ` the cell of a captured
location: while the variable lives on the stack its cell is open on its position, afterwards it holds its value.
-/

namespace Dice.Sim

open Src (SEnv)

/-- The evaluator's form of a function. -/
def formOf : FnKind → Src.Form
  | .function | .staticMethod => .function
  | .method => .method
  | .constructor _ => .constructor

/-- What `return` means in a function. -/
def roleOf : CompilerKind → Src.Role
  | .constructor => .constructor
  | k => .plain k.returnType

theorem roleOf_fn (k : FnKind) (ret : Option TypeAnn) (args : List FnArg) (body : Expr) (ρ : SEnv) :
    roleOf (fnCompilerKind k ret) = (⟨formOf k, args, ret, body, ρ⟩ : Src.Closure).role := by
  cases k <;> cases ret <;> rfl

/-- A function value of the machine for a closure of the evaluator: the compiled body, and the cells of the captured
variables in the order of the descriptors. -/
inductive FnRel (μ : Nat → Option Nat) : Src.Closure → Value → Prop where
  | mk {g g' : Env} {fn : Ctx} {c : Code} {bc : Bytecode} {name : String} {id : Nat} {segs : List SEnv}
      {k : FnKind} {args : List FnArg} {ret : Option TypeAnn} {body : Expr} {v : Value}
      (gen : Gen (g.pushFn (fnCompilerKind k ret)) (.fnBody k args (bodyExprs body) (bodyTrailing body)) c (fn :: g'))
      (code : FnCode fn c bc) (fits : Fits bc) (inv : StackInv g) (flags : FlagInv g) (outer : OuterMatches g segs)
      (val : (fn.upvalues = [] ∧ v = .fnScript bc name id) ∨ ∃ us : List Nat, us ≠ [] ∧ v = .fnClosure bc name id us ∧
        ∀ (i : Nat) (d : UpvalueDescriptor), fn.upvalues[i]? = some d → ∃ l a : Nat, locOf g' segs d = some l ∧ us[i]? = some a ∧ μ l = some a) :
      FnRel μ ⟨formOf k, args, ret, body, segs.flatten⟩ v

theorem FnRel.mono {μ μ' : Nat → Option Nat} (h : ∀ l a, μ l = some a → μ' l = some a) {cl : Src.Closure} {v : Value}
    (hf : FnRel μ cl v) : FnRel μ' cl v := by
  cases hf with
  | mk gen code fits inv flags outer val =>
    refine .mk gen code fits inv flags outer (val.imp id ?_)
    rintro ⟨us, h0, h1, h2⟩
    refine ⟨us, h0, h1, fun i d hd => ?_⟩
    obtain ⟨l, a, e1, e2, e3⟩ := h2 i d hd
    exact ⟨l, a, e1, e2, h l a e3⟩

theorem FnRel.kind {μ : Nat → Option Nat} {cl : Src.Closure} {v : Value} (hf : FnRel μ cl v) :
    v.kind = .function ∧ v.Plain := by
  cases hf with
  | mk gen code fits inv flags outer val =>
    rcases val with ⟨-, rfl⟩ | ⟨us, h0, rfl, -⟩
    · exact ⟨rfl, trivial⟩
    · refine ⟨rfl, ?_⟩
      cases us with
      | nil => exact absurd rfl h0
      | cons => trivial

structure Inv (Λ μ : Nat → Option Nat) (κ : List Value) (σ : Src.State) (m : VM) : Prop where
  heap : HeapRel κ σ.heap m.heap
  globals : MapRel κ σ.globals m.globals
  modules : MapRel κ σ.modules m.modules
  vars : ∀ p l s, Λ p = some l → σ.store[l]? = some (some s) → VRel κ s (m.mem p)
  bound : ∀ p l, Λ p = some l → l < σ.store.length
  inj : ∀ p q l, Λ p = some l → Λ q = some l → p = q
  opens : ∀ a p, a ∈ m.openUps → m.cells[a]? = some (.open p) → ∃ l, Λ p = some l ∧ μ l = some a
  opened : ∀ l a p, μ l = some a → Λ p = some l → a ∈ m.openUps ∧ m.cells[a]? = some (.open p)
  closed : ∀ l a, μ l = some a → (∀ p, Λ p ≠ some l) →
    ∃ v, m.cells[a]? = some (.closed v) ∧ ∀ s, σ.store[l]? = some (some s) → VRel κ s v
  muInj : ∀ l l' a, μ l = some a → μ l' = some a → l = l'
  muBound : ∀ l a, μ l = some a → l < σ.store.length
  fns : All₂ (FnRel μ) σ.fns κ

namespace Inv

variable {Λ μ : Nat → Option Nat} {κ : List Value} {σ : Src.State} {m : VM}

theorem cell_lt (h : Inv Λ μ κ σ m) {l a : Nat} (hl : μ l = some a) : a < m.cells.length := by
  have : ∃ c, m.cells[a]? = some c := by
    by_cases hp : ∃ p, Λ p = some l
    · obtain ⟨p, hp⟩ := hp
      exact ⟨_, (h.opened l a p hl hp).2⟩
    · obtain ⟨v, hv, -⟩ := h.closed l a hl fun p he => hp ⟨p, he⟩
      exact ⟨_, hv⟩
  obtain ⟨c, hc⟩ := this
  exact (List.getElem?_eq_some_iff.1 hc).1

/-- Another heap and other globals. -/
theorem data (h : Inv Λ μ κ σ m) {a : Heap} {b : Heap} (hh : HeapRel κ a b) :
    Inv Λ μ κ { σ with heap := a } { m with heap := b } :=
  { h with heap := hh }

theorem global (h : Inv Λ μ κ σ m) {a b : ValueMap} (hh : MapRel κ a b) :
    Inv Λ μ κ { σ with globals := a } { m with globals := b } :=
  { h with globals := hh }

theorem module (h : Inv Λ μ κ σ m) {a b : ValueMap} (hh : MapRel κ a b) :
    Inv Λ μ κ { σ with modules := a } { m with modules := b } :=
  { h with modules := hh }

/-- Memory may change where no variables live. -/
theorem scratch (h : Inv Λ μ κ σ m) {mem : Nat → Value} (ptr : Nat) (hm : ∀ p l, Λ p = some l → mem p = m.mem p) :
    Inv Λ μ κ σ { m with mem := mem, ptr := ptr } :=
  { h with vars := fun p l s hp hs => by rw [show ({ m with mem := mem, ptr := ptr } : VM).mem p = m.mem p from hm p l hp]; exact h.vars p l s hp hs }

/-- A variable on the stack gets a value. -/
theorem write (h : Inv Λ μ κ σ m) {p l : Nat} {s v : Value} (hp : Λ p = some l) (hv : VRel κ s v) :
    Inv Λ μ κ { σ with store := σ.store.set l (some s) } { m with mem := upd m.mem p v } := by
  have hl := h.bound p l hp
  refine { h with vars := ?_, bound := ?_, closed := ?_, muBound := ?_ }
  · intro q l' s' hq hs'
    by_cases hpq : q = p
    · subst hpq
      cases hp.symm.trans hq
      dsimp only at hs'
      rw [List.getElem?_set_self hl] at hs'
      cases hs'
      show VRel κ s (upd m.mem q v q)
      rw [upd_same]; exact hv
    · have : l' ≠ l := fun he => hpq (h.inj q p l (he ▸ hq) hp)
      show VRel κ s' (upd m.mem p v q)
      rw [upd_other hpq]
      dsimp only at hs'
      rw [List.getElem?_set_ne (Ne.symm this)] at hs'
      exact h.vars q l' s' hq hs'
  · intro q l' hq; simpa using h.bound q l' hq
  · intro l' a ha hn
    have : l' ≠ l := fun he => hn p (he ▸ hp)
    obtain ⟨u, h1, h2⟩ := h.closed l' a ha hn
    refine ⟨u, h1, fun s' hs' => h2 s' ?_⟩
    dsimp only at hs'
    rwa [List.getElem?_set_ne (Ne.symm this)] at hs'
  · intro l' a ha; simpa using h.muBound l' a ha

/-- A variable that does not live on the stack any more gets a value. -/
theorem writeClosed (h : Inv Λ μ κ σ m) {l a : Nat} {s v : Value} (ha : μ l = some a) (hn : ∀ p, Λ p ≠ some l)
    (hv : VRel κ s v) :
    Inv Λ μ κ { σ with store := σ.store.set l (some s) } { m with cells := m.cells.set a (.closed v) } := by
  obtain ⟨u, hu, -⟩ := h.closed l a ha hn
  have hlt := (List.getElem?_eq_some_iff.1 hu).1
  refine { h with vars := ?_, bound := ?_, closed := ?_, muBound := ?_, opens := ?_, opened := ?_ }
  · intro q l' s' hq hs'
    have : l' ≠ l := fun he => hn q (he ▸ hq)
    dsimp only at hs'
    rw [List.getElem?_set_ne (Ne.symm this)] at hs'
    exact h.vars q l' s' hq hs'
  · intro q l' hq; simpa using h.bound q l' hq
  · intro b p hb hc
    have hne : a ≠ b := by
      rintro rfl
      dsimp only at hc
      rw [List.getElem?_set_self hlt] at hc
      cases hc
    dsimp only at hc
    rw [List.getElem?_set_ne hne] at hc
    exact h.opens b p hb hc
  · intro l' b p hb hp
    obtain ⟨h1, h2⟩ := h.opened l' b p hb hp
    refine ⟨h1, ?_⟩
    have hne : a ≠ b := by rintro rfl; rw [hu] at h2; cases h2
    dsimp only
    rwa [List.getElem?_set_ne hne]
  · intro l' b hb hn'
    by_cases he : l' = l
    · subst he
      cases ha.symm.trans hb
      refine ⟨v, ?_, fun s' hs' => ?_⟩
      · dsimp only; exact List.getElem?_set_self hlt
      · dsimp only at hs'
        rw [List.getElem?_set_self (h.muBound _ _ ha)] at hs'
        cases hs'; exact hv
    · obtain ⟨u', h1, h2⟩ := h.closed l' b hb hn'
      have hne : a ≠ b := fun hab => he (h.muInj l' l b hb (hab ▸ ha))
      refine ⟨u', ?_, fun s' hs' => h2 s' ?_⟩
      · dsimp only; rwa [List.getElem?_set_ne hne]
      · dsimp only at hs'
        rwa [List.getElem?_set_ne (Ne.symm he)] at hs'
  · intro l' b hb; simpa using h.muBound l' b hb

theorem append_get {α : Type} {xs : List α} {x y : α} {l : Nat} (h : (xs ++ [x])[l]? = some y) :
    xs[l]? = some y ∨ (l = xs.length ∧ y = x) := by
  rw [List.getElem?_append] at h
  split at h
  · exact .inl h
  · rename_i hl
    right
    have : l - xs.length = 0 := by
      cases hh : l - xs.length with
      | zero => rfl
      | succ k => rw [hh] at h; cases h
    rw [this] at h
    cases h
    exact ⟨by omega, rfl⟩

/-- A new variable at a position where none lives. -/
theorem alloc (h : Inv Λ μ κ σ m) {Λ' : Nat → Option Nat} {p : Nat} {x : Option Value}
    (hp : Λ' p = some σ.store.length) (ho : ∀ q l, q ≠ p → (Λ' q = some l ↔ Λ q = some l)) (hn : ∀ l, Λ p ≠ some l)
    (hx : ∀ s, x = some s → VRel κ s (m.mem p)) : Inv Λ' μ κ { σ with store := σ.store ++ [x] } m := by
  have hlen : ({ σ with store := σ.store ++ [x] } : Src.State).store.length = σ.store.length + 1 := by simp
  have hold : ∀ q l, Λ' q = some l → (q = p ∧ l = σ.store.length) ∨ (q ≠ p ∧ Λ q = some l ∧ l < σ.store.length) := by
    intro q l hq
    by_cases hqp : q = p
    · subst hqp; cases hp.symm.trans hq; exact .inl ⟨rfl, rfl⟩
    · exact .inr ⟨hqp, (ho q l hqp).1 hq, h.bound q l ((ho q l hqp).1 hq)⟩
  refine { h with vars := ?_, bound := ?_, inj := ?_, opens := ?_, opened := ?_, closed := ?_, muBound := ?_ }
  · intro q l s hq hs
    dsimp only at hs
    rcases hold q l hq with ⟨rfl, rfl⟩ | ⟨-, h1, h2⟩
    · rcases append_get hs with h' | ⟨-, h'⟩
      · have := (List.getElem?_eq_some_iff.1 h').1; omega
      · exact hx s h'.symm
    · rw [List.getElem?_append_left h2] at hs
      exact h.vars q l s h1 hs
  · intro q l hq
    rw [hlen]
    rcases hold q l hq with ⟨-, rfl⟩ | ⟨-, -, h2⟩ <;> omega
  · intro q q' l hq hq'
    rcases hold q l hq with ⟨rfl, rfl⟩ | ⟨-, h1, h2⟩
    · rcases hold q' _ hq' with ⟨rfl, -⟩ | ⟨-, -, h2⟩
      · rfl
      · omega
    · rcases hold q' l hq' with ⟨-, rfl⟩ | ⟨-, h1', -⟩
      · omega
      · exact h.inj q q' l h1 h1'
  · intro a q ha hc
    obtain ⟨l, h1, h2⟩ := h.opens a q ha hc
    have hqp : q ≠ p := fun he => hn l (he ▸ h1)
    exact ⟨l, (ho q l hqp).2 h1, h2⟩
  · intro l a q ha hq
    rcases hold q l hq with ⟨-, rfl⟩ | ⟨-, h1, -⟩
    · have := h.muBound _ _ ha; omega
    · exact h.opened l a q ha h1
  · intro l a ha hq
    have hl := h.muBound _ _ ha
    obtain ⟨v, h1, h2⟩ := h.closed l a ha (fun q hq' => by
      have hqp : q ≠ p := fun he => hn l (he ▸ hq')
      exact hq q ((ho q l hqp).2 hq'))
    refine ⟨v, h1, fun s hs => h2 s ?_⟩
    dsimp only at hs
    rwa [List.getElem?_append_left hl] at hs
  · intro l a ha
    rw [hlen]
    have := h.muBound l a ha
    omega

/-- The end of variables that no function captures. -/
theorem drop (h : Inv Λ μ κ σ m) {Λ' : Nat → Option Nat} (hs : ∀ p l, Λ' p = some l → Λ p = some l)
    (hd : ∀ p l, Λ p = some l → Λ' p = some l ∨ μ l = none) : Inv Λ' μ κ σ m := by
  refine { h with vars := ?_, bound := ?_, inj := ?_, opens := ?_, opened := ?_, closed := ?_ }
  · exact fun p l s hp => h.vars p l s (hs p l hp)
  · exact fun p l hp => h.bound p l (hs p l hp)
  · exact fun p q l hp hq => h.inj p q l (hs p l hp) (hs q l hq)
  · intro a p ha hc
    obtain ⟨l, h1, h2⟩ := h.opens a p ha hc
    rcases hd p l h1 with h3 | h3
    · exact ⟨l, h3, h2⟩
    · rw [h2] at h3; cases h3
  · exact fun l a p ha hp => h.opened l a p ha (hs p l hp)
  · intro l a ha hn
    refine h.closed l a ha fun p hp => ?_
    rcases hd p l hp with h3 | h3
    · exact hn p h3
    · rw [ha] at h3; cases h3

/-- The end of a captured variable: its cell is closed. -/
theorem close (h : Inv Λ μ κ σ m) {Λ' : Nat → Option Nat} {p l a i : Nat} (hp : Λ p = some l) (ha : μ l = some a)
    (ho : ∀ q l', Λ' q = some l' ↔ (q ≠ p ∧ Λ q = some l')) (hi : m.openUps[i]? = some a) (v : Value) :
    Inv Λ' μ κ σ { m with
      mem := upd m.mem p v, cells := m.cells.set a (.closed (m.mem p)), openUps := m.openUps.eraseIdx i } := by
  have hca := (h.opened l a p ha hp).2
  have hlt := (List.getElem?_eq_some_iff.1 hca).1
  have hmem : ∀ b, b ≠ a → b ∈ m.openUps → b ∈ m.openUps.eraseIdx i := by
    intro b hb hm
    obtain ⟨j, hj⟩ := List.getElem?_of_mem hm
    have hji : j ≠ i := by rintro rfl; rw [hi] at hj; cases hj; exact hb rfl
    rw [List.mem_eraseIdx_iff_getElem?]
    exact ⟨j, hji, hj⟩
  refine { h with vars := ?_, bound := ?_, inj := ?_, opens := ?_, opened := ?_, closed := ?_ }
  · intro q l' s hq hs
    obtain ⟨h1, h2⟩ := (ho q l').1 hq
    show VRel κ s (upd m.mem p v q)
    rw [upd_other h1]
    exact h.vars q l' s h2 hs
  · exact fun q l' hq => h.bound q l' ((ho q l').1 hq).2
  · exact fun q q' l' hq hq' => h.inj q q' l' ((ho q l').1 hq).2 ((ho q' l').1 hq').2
  · intro b q hb hc
    dsimp only at hb hc
    have hne : a ≠ b := by
      rintro rfl
      rw [List.getElem?_set_self hlt] at hc
      cases hc
    rw [List.getElem?_set_ne hne] at hc
    obtain ⟨l', h1, h2⟩ := h.opens b q (List.mem_of_mem_eraseIdx hb) hc
    refine ⟨l', (ho q l').2 ⟨?_, h1⟩, h2⟩
    rintro rfl
    cases hp.symm.trans h1
    exact hne (Option.some.inj (ha.symm.trans h2))
  · intro l' b q hb hq
    obtain ⟨h1, h2⟩ := (ho q l').1 hq
    obtain ⟨h3, h4⟩ := h.opened l' b q hb h2
    have hne : b ≠ a := by
      rintro rfl
      cases h.muInj l' l b hb ha
      exact h1 (h.inj _ _ _ h2 hp)
    refine ⟨hmem b hne h3, ?_⟩
    dsimp only
    rwa [List.getElem?_set_ne (Ne.symm hne)]
  · intro l' b hb hn
    by_cases he : l' = l
    · subst he
      cases ha.symm.trans hb
      refine ⟨m.mem p, ?_, fun s hs => h.vars p _ s hp hs⟩
      dsimp only; exact List.getElem?_set_self hlt
    · obtain ⟨u, h1, h2⟩ := h.closed l' b hb fun q hq => hn q ((ho q l').2 ⟨fun hqp => by
        subst hqp; cases hp.symm.trans hq; exact he rfl, hq⟩)
      have hne : a ≠ b := fun hab => he (h.muInj l' l b hb (hab ▸ ha))
      refine ⟨u, ?_, h2⟩
      dsimp only; rwa [List.getElem?_set_ne hne]

/-- The first capture of a variable. -/
theorem capture (h : Inv Λ μ κ σ m) {p l : Nat} (hp : Λ p = some l) (hl : μ l = none) :
    Inv Λ (fun x => if x = l then some m.cells.length else μ x) κ σ
      { m with cells := m.cells ++ [.open p], openUps := m.openUps ++ [m.cells.length] } := by
  have hmu : ∀ x a, (if x = l then some m.cells.length else μ x) = some a →
      (x = l ∧ a = m.cells.length) ∨ (x ≠ l ∧ μ x = some a ∧ a < m.cells.length) := by
    intro x a hx
    split at hx
    · cases hx; exact .inl ⟨‹_›, rfl⟩
    · exact .inr ⟨‹_›, hx, h.cell_lt hx⟩
  have hmono : ∀ x a, μ x = some a → (if x = l then some m.cells.length else μ x) = some a := by
    intro x a hx
    rw [if_neg (by rintro rfl; rw [hl] at hx; cases hx)]; exact hx
  refine { h with opens := ?_, opened := ?_, closed := ?_, muInj := ?_, muBound := ?_, fns := ?_ }
  · intro a q ha hc
    dsimp only at ha hc
    by_cases hac : a = m.cells.length
    · subst hac
      rw [List.getElem?_append_right (Nat.le_refl _), Nat.sub_self] at hc
      cases hc
      exact ⟨l, hp, if_pos rfl⟩
    · have ha' : a ∈ m.openUps := by
        rcases List.mem_append.1 ha with h1 | h1
        · exact h1
        · exact absurd (List.mem_singleton.1 h1) hac
      rcases append_get hc with h1 | ⟨h1, -⟩
      · obtain ⟨l', h2, h3⟩ := h.opens a q ha' h1
        exact ⟨l', h2, hmono _ _ h3⟩
      · exact absurd h1 hac
  · intro l' a q ha hq
    dsimp only
    rcases hmu l' a ha with ⟨rfl, rfl⟩ | ⟨-, h1, h2⟩
    · cases h.inj p q l' hp hq
      refine ⟨List.mem_append_right _ (List.mem_singleton.2 rfl), ?_⟩
      rw [List.getElem?_append_right (Nat.le_refl _), Nat.sub_self]; rfl
    · obtain ⟨h3, h4⟩ := h.opened l' a q h1 hq
      exact ⟨List.mem_append_left _ h3, by rw [List.getElem?_append_left h2]; exact h4⟩
  · intro l' a ha hn
    rcases hmu l' a ha with ⟨rfl, rfl⟩ | ⟨-, h1, h2⟩
    · exact absurd hp (hn p)
    · obtain ⟨v, h3, h4⟩ := h.closed l' a h1 hn
      refine ⟨v, ?_, h4⟩
      dsimp only; rw [List.getElem?_append_left h2]; exact h3
  · intro l1 l2 a h1 h2
    rcases hmu l1 a h1 with ⟨rfl, rfl⟩ | ⟨-, e1, e2⟩
    · rcases hmu l2 _ h2 with ⟨rfl, -⟩ | ⟨-, e1, e2⟩
      · rfl
      · omega
    · rcases hmu l2 a h2 with ⟨rfl, rfl⟩ | ⟨-, e1', -⟩
      · omega
      · exact h.muInj l1 l2 a e1 e1'
  · intro x a hx
    rcases hmu x a hx with ⟨rfl, -⟩ | ⟨-, h1, -⟩
    · exact h.bound p x hp
    · exact h.muBound x a h1
  · exact h.fns.mono fun _ _ hf => hf.mono hmono

/-- A new function. -/
theorem newFn (h : Inv Λ μ κ σ m) {cl : Src.Closure} {v : Value} (hf : FnRel μ cl v) :
    Inv Λ μ (κ ++ [v]) { σ with fns := σ.fns ++ [cl] } m := by
  have hk : κ <+: κ ++ [v] := List.prefix_append _ _
  refine { h with heap := h.heap.mono hk, globals := h.globals.mono hk, modules := h.modules.mono hk, vars := ?_, closed := ?_, fns := h.fns.snoc hf }
  · exact fun p l s hp hs => (h.vars p l s hp hs).mono hk
  · intro l a ha hn
    obtain ⟨u, h1, h2⟩ := h.closed l a ha hn
    exact ⟨u, h1, fun s hs => (h2 s hs).mono hk⟩

end Inv

end Dice.Sim
