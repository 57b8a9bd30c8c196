import Verif.BalanceProps

/-!
# Arguments of calls

Where the compiler puts parameters and what the machine has put there when the function starts.
-/

namespace Dice

/-! ## The slots of parameters -/

/-- The variables of the innermost function, latest first, with their slots. -/
def Env.vars : Env → List (String × Nat)
  | [] => []
  | c :: _ => (ScopeStack.visible c.scopes.stack).map fun v => (v.name, v.slot)

theorem lookup_vars (g : Env) (x : String) : (g.lookup x).map (·.slot) = g.vars.lookup x := by
  cases g with
  | nil => rfl
  | cons c rest =>
    show (c.scopes.local? x).map (·.slot) = _
    show (List.find? _ (ScopeStack.visible c.scopes.stack)).map _ =
      ((ScopeStack.visible c.scopes.stack).map fun v => (v.name, v.slot)).lookup x
    generalize ScopeStack.visible c.scopes.stack = vs
    induction vs with
    | nil => rfl
    | cons v vs ih =>
      simp only [List.find?_cons, List.map_cons, List.lookup_cons]
      by_cases h : v.name = x
      · subst h; simp
      · rw [beq_eq_false_iff_ne.2 h, beq_eq_false_iff_ne.2 (Ne.symm h)]
        exact ih

theorem vars_length {g : Env} (inv : StackInv g) {c : Ctx} {rest : List Ctx} (hg : g = c :: rest) :
    g.vars.length = ScopeStack.totalSlots c.scopes.stack := by
  subst hg
  have := congrArg List.length inv.2.1.slots
  simpa [Env.vars] using this

theorem addLocal_vars {g g' : Env} {x : String} {st : VarState} {slot : Nat} (inv : StackInv g)
    (h : g.addLocal x st = some (slot, g')) : slot = g.vars.length ∧ g'.vars = (x, slot) :: g.vars := by
  match g, h with
  | c :: rest, h =>
    have hl := vars_length inv rfl
    obtain ⟨k, a, u, ⟨st', n⟩, t⟩ := c
    cases st' with
    | nil => cases h
    | cons s ss =>
      cases h
      refine ⟨?_, rfl⟩
      rw [hl]
      simp only [ScopeStack.totalSlots, List.map_cons, List.sum_cons]
      omega

theorem resolve_vars {g g' : Env} {x : String} {i : Nat} (h : resolveUpvalue x g = some (i, g')) : g'.vars = g.vars := by
  have := resolve_ext x g i g' h
  cases this with
  | nil => rfl
  | cons hc _ =>
    have := congrArg (List.map fun (q : String × Nat × VarState) => (q.1, q.2.1)) (visible_core _ _ hc.scopes)
    simpa [Env.vars, ScopeVar.core, Function.comp_def] using this

theorem TypeGen.vars {g g' : Env} {slot : Nat} {t : Option TypeAnn} {c : Code} (h : TypeGen g slot t c g') :
    g'.vars = g.vars := by
  cases h with
  | none => rfl
  | some h => cases h with
    | «local» => rfl
    | captured _ hr => exact resolve_vars hr
    | global => rfl

theorem ParamsGen.vars {g g' : Env} {args : List FnArg} {c : Code} (h : ParamsGen g args c g') (inv : StackInv g) :
    g'.vars = ((args.map (·.name)).zipIdx g.vars.length).reverse ++ g.vars := by
  induction h with
  | nil => rfl
  | @cons g g1 g2 g3 a rest slot c1 c2 hl ht hr ih =>
    obtain ⟨hs, hv⟩ := addLocal_vars inv hl
    have inv1 := (slotRel.addLocal hl inv).1
    rw [ih ((ht.rel slotRel) inv1).1, ht.vars, hv]
    simp only [List.map_cons, List.zipIdx_cons, List.reverse_cons, List.append_assoc, List.cons_append, List.nil_append,
      List.length_cons, hs]

theorem lookup_zipIdx {xs : List String} (hn : xs.Nodup) {i k : Nat} {x : String} (h : xs[i]? = some x)
    (rest : List (String × Nat)) : ((xs.zipIdx k).reverse ++ rest).lookup x = some (k + i) := by
  induction xs generalizing i k rest with
  | nil => cases h
  | cons y ys ih =>
    obtain ⟨hy, hn⟩ := List.nodup_cons.1 hn
    simp only [List.zipIdx_cons, List.reverse_cons, List.append_assoc, List.cons_append, List.nil_append]
    cases i with
    | zero =>
      cases h
      rw [List.lookup_append]
      have : (List.reverse (ys.zipIdx (k + 1))).lookup x = none := by
        rw [List.lookup_eq_none_iff]
        intro p hp
        simp only [List.mem_reverse] at hp
        have := List.fst_mem_of_mem_zipIdx hp
        simp only [beq_eq_false_iff_ne, ne_eq, bne_iff_ne]
        rintro rfl
        exact hy this
      rw [this]
      simp
    | succ i => rw [ih hn h]; congr 1; omega

/-- **C24.**  In the body of a function the i-th parameter is the variable in slot `i + 1`; in methods, whose first
parameter is the receiver, it is slot `i`.  This holds before the body declares anything. -/
theorem parameter_slot {g : Env} {k : CompilerKind} {fk : FnKind} {args : List FnArg} {c1 : Code} {g1 g2 : Env}
    (inv : StackInv g) (h0 : (g.pushFn k).pushScope .block false = some g1) (ha : ArgsGen g1 fk args c1 g2)
    (hu : (args.map (·.name)).Nodup) {i : Nat} {a : FnArg} (hi : args[i]? = some a) :
    ∃ v, g2.lookup a.name = some v ∧ v.slot = (if fk = .function ∨ fk = .staticMethod then i + 1 else i) := by
  have inv0 : StackInv (g.pushFn k) := ⟨List.Pairwise.nil, scopeInv_new _, by simp, inv⟩
  have inv1 := (slotRel.pushScope h0 inv0).1
  have hv1 : g1.vars = [] := by cases h0; rfl
  have hx : (args.map (·.name))[i]? = some a.name := by rw [List.getElem?_map, hi]; rfl
  have key : g2.vars.lookup a.name = some (if fk = .function ∨ fk = .staticMethod then i + 1 else i) := by
    cases ha with
    | noReceiver hk hl hp =>
      obtain ⟨hs, hv⟩ := addLocal_vars inv1 hl
      rw [hp.vars (slotRel.addLocal hl inv1).1, hv, hv1, if_pos hk, lookup_zipIdx hu hx]
      congr 1
      simp only [List.length_cons, List.length_nil]
      omega
    | receiver hk hp =>
      rw [hp.vars inv1, hv1, if_neg hk, lookup_zipIdx hu hx]
      congr 1
      simp only [List.length_nil]
      omega
  rw [← lookup_vars, Option.map_eq_some_iff] at key
  exact key

/-! ## The state in which a function starts -/

/-- What a function sees in its frame when it starts: its receiver or the called value in slot 0, the arguments
after it. -/
structure Entered (m : VM) (receiver : Option Value) (args : List Value) (slots : Nat) (f : Frame) (m1 : VM) : Prop where
  start : f.start + args.length + 1 = m.ptr
  room : f.start + slots ≤ f.stop
  top : m1.ptr = f.stop
  below : ∀ j, j < f.start → m1.mem j = m.mem j
  receiver : ∀ r, receiver = some r → m1.mem f.start = r
  args : ∀ (i : Nat) a, args[i]? = some a → m1.mem (f.start + (i + 1)) = a
  above : ∀ j, m.ptr ≤ j → m1.mem j = m.mem j
  cells : m1.cells = m.cells

theorem callScript_enters {w : World} {n : Nat} {args : List Value} {receiver : Option Value} {bc : Bytecode}
    {ups : Option (List Nat)} {m m' : VM} {v : Value}
    (hargs : ∀ (i : Nat) a, args[i]? = some a → m.mem (m.ptr - args.length + i) = a)
    (h : callScript w n args.length receiver bc ups m = (.ok v, m')) :
    ∃ k f m1 m2, Entered m receiver args bc.slotCount f m1 ∧ execute w k bc f ups m1 = (.ok v, m2) ∧
      releaseFrame w f m2 = (.ok (), m') := by
  cases n with
  | zero => rw [callScript] at h; cases h
  | succ n =>
    rw [callScript] at h
    obtain ⟨f, m1, h1, h⟩ := bind_ok_inv h
    have hf : f = ⟨m.ptr, m.ptr + (if args.length < bc.slotCount then bc.slotCount - args.length else bc.slotCount)⟩ ∧
        m1 = { m with ptr := f.stop } := by
      unfold reserveSlots at h1
      dsimp only at h1
      generalize (if args.length < bc.slotCount then bc.slotCount - args.length else bc.slotCount) = r at h1 ⊢
      split at h1
      · cases h1
      · cases h1; exact ⟨rfl, rfl⟩
    obtain ⟨hf, rfl⟩ := hf
    split at h
    · cases h
    · rename_i hlt
      have hstart : f.start = m.ptr := by rw [hf]
      have hstop : f.stop = m.ptr + (if args.length < bc.slotCount then bc.slotCount - args.length else bc.slotCount) := by
        rw [hf]
      obtain ⟨_, m3, h3, h⟩ := bind_ok_inv h
      obtain ⟨r, m4, h4, h⟩ := bind_ok_inv h
      obtain ⟨_, m5, h5, h⟩ := bind_ok_inv h
      cases h
      refine ⟨n, { start := f.start - (args.length + 1), stop := f.stop }, m3, m4, ?_, h4, h5⟩
      have hm3 : m3.ptr = f.stop ∧ m3.cells = m.cells ∧ (∀ j, j ≠ f.start - (args.length + 1) → m3.mem j = m.mem j) ∧
          ∀ r, receiver = some r → m3.mem (f.start - (args.length + 1)) = r := by
        cases receiver with
        | none => cases h3; exact ⟨rfl, rfl, fun _ _ => rfl, fun _ h => by cases h⟩
        | some r =>
          have h3 : frameSet { start := f.start - (args.length + 1), stop := f.stop } 0 r { m with ptr := f.stop } = (.ok (), m3) := h3
          unfold frameSet at h3
          by_cases hc : f.stop ≤ maxStack ∧ f.start - (args.length + 1) + 0 < f.stop
          · rw [if_pos hc] at h3
            cases h3
            refine ⟨rfl, rfl, fun j hj => upd_other hj, fun r h => ?_⟩
            cases h
            exact upd_same _ _ _
          · rw [if_neg hc] at h3
            cases h3
      exact
        { start := by show f.start - (args.length + 1) + args.length + 1 = m.ptr; omega
          room := by show f.start - (args.length + 1) + bc.slotCount ≤ f.stop; split at hstop <;> omega
          top := hm3.1
          below := fun j hj => hm3.2.2.1 j (by have hj : j < f.start - (args.length + 1) := hj; omega)
          receiver := hm3.2.2.2
          args := fun i a ha => by
            show m3.mem (f.start - (args.length + 1) + (i + 1)) = a
            rw [hm3.2.2.1 _ (by omega)]
            rw [← hargs i a ha]
            congr 1
            have := (List.getElem?_eq_some_iff.1 ha).1
            omega
          above := fun j hj => hm3.2.2.1 j (by omega)
          cells := hm3.2.1 }

/-- **C24.**  A call of a script function or closure with the values `args` on top of the stack runs its code from
its beginning in a frame whose slot `i + 1`, the slot of parameter `i` by `parameter_slot`, holds `args[i]`, and
the value that this run gives is left on the stack in place of the callee and its arguments. -/
theorem call_passes_arguments {w : World} {n : Nat} {args : List Value} {m m' : VM} {target : Value} {bc : Bytecode}
    {name : String} {id : Nat} {ups : Option (List Nat)}
    (hargs : ∀ (i : Nat) a, args[i]? = some a → m.mem (m.ptr - args.length + i) = a)
    (htarget : m.mem (m.ptr - args.length - 1) = target)
    (hfn : (ups = none ∧ (callTarget target).1 = .fnScript bc name id) ∨
      ∃ us, ups = some us ∧ (callTarget target).1 = .fnClosure bc name id us)
    (h : callFn w n args.length m = (.ok (), m')) :
    ∃ k f m1 v m2 m3, Entered m (callTarget target).2 args bc.slotCount f m1 ∧
      execute w k bc f ups m1 = (.ok v, m2) ∧ releaseFrame w f m2 = (.ok (), m3) ∧ push v m3 = (.ok (), m') := by
  cases n with
  | zero => rw [callFn] at h; cases h
  | succ n =>
    rw [callFn] at h
    obtain ⟨t, m1, h1, h⟩ := bind_ok_inv h
    unfold peek at h1
    split at h1
    · cases h1
      rw [htarget] at h
      obtain ⟨v, m3, h2, h3⟩ := bind_ok_inv h
      have : callScript w n args.length (callTarget target).2 bc ups m = (.ok v, m3) := by
        generalize callTarget target = ct at hfn h2 ⊢
        obtain ⟨c, r⟩ := ct
        rcases hfn with ⟨rfl, rfl⟩ | ⟨us, rfl, rfl⟩ <;> exact h2
      obtain ⟨k, f, m1, m2, he, hx, hr⟩ := callScript_enters hargs this
      exact ⟨k, f, m1, v, m2, m3, he, hx, hr, h3⟩
    · cases h1

/-- **C25, partial.**  Slots that got no argument are null when the function starts, except where an earlier
function left a captured variable behind.  Without the exception this is false: `Findings.missing_argument_not_null`. -/
theorem missing_arguments_null_partial {w : World} {n : Nat} {args : List Value} {m m' : VM} {target : Value} {bc : Bytecode}
    {name : String} {id : Nat} {ups : Option (List Nat)} (g : GoodVM m)
    (hargs : ∀ (i : Nat) a, args[i]? = some a → m.mem (m.ptr - args.length + i) = a)
    (htarget : m.mem (m.ptr - args.length - 1) = target)
    (hfn : (ups = none ∧ (callTarget target).1 = .fnScript bc name id) ∨
      ∃ us, ups = some us ∧ (callTarget target).1 = .fnClosure bc name id us)
    (h : callFn w n args.length m = (.ok (), m')) :
    ∃ k f m1 v m2 m3, Entered m (callTarget target).2 args bc.slotCount f m1 ∧
      execute w k bc f ups m1 = (.ok v, m2) ∧ releaseFrame w f m2 = (.ok (), m3) ∧ push v m3 = (.ok (), m') ∧
      ∀ i, args.length ≤ i → m1.mem (f.start + (i + 1)) = .null ∨ m1.OpenAt (f.start + (i + 1)) := by
  obtain ⟨k, f, m1, v, m2, m3, he, hx, hr, hp⟩ := call_passes_arguments hargs htarget hfn h
  refine ⟨k, f, m1, v, m2, m3, he, hx, hr, hp, fun i hi => ?_⟩
  have hs := he.start
  have hj : m.ptr ≤ f.start + (i + 1) := by omega
  rw [he.above _ hj]
  unfold VM.OpenAt
  rw [he.cells]
  exact g.clean _ hj

namespace Findings

/-- `fn f(a, b, c) b` as the compiler translates it. -/
def second : Bytecode :=
  match compile .script (.block [.fnDecl "f" [⟨"a", none⟩, ⟨"b", none⟩, ⟨"c", none⟩] none (.ident "b")] none) with
  | .ok bc => (bc.constants.findSome? fun c => match c with | .fn code _ _ => some code | _ => none).getD bc
  | .error _ => { data := [], constants := [], slotCount := 0, upvalueCount := 0 }

/-- A stack with the function and the arguments 7 and 8. -/
def calling : VM :=
  { machine with ptr := 3, mem := fun j => if j = 0 then .fnScript second "f" 0 else if j = 1 then .int 7 else
      if j = 2 then .int 8 else .null }

example : ∃ m', callFn (world true) 20 [Value.int 7, Value.int 8].length calling = (.ok (), m') ∧ m'.mem 0 = .int 8 := by
  have h : (match callFn (world true) 20 2 calling with
    | (.ok (), m') => same (m'.mem 0) (.int 8)
    | _ => false) = true := by decide +kernel
  show ∃ m', callFn (world true) 20 2 calling = (.ok (), m') ∧ _
  generalize callFn (world true) 20 2 calling = r at h ⊢
  split at h
  · exact ⟨_, rfl, same_eq h⟩
  · cases h

end Findings

end Dice
