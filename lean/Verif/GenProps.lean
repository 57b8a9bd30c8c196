import Verif.RunFlow

/-!
# The compiler follows the judgement

`visit_gen`: whatever the compiler emits for an expression is the structured code the judgement `Gen` assigns
to it, laid out as bytecode.
-/

namespace Dice

/-- The visitor `x` compiles the node `nd` according to the judgement. -/
def Sp (x : M Unit) (nd : Node) : Prop :=
  ∀ s s', Inv s → (∃ d rest, s.stack = d :: rest) → x s = .ok ((), s') → ∃ c, Gen s.env nd c s'.env ∧ Run s s' [] c

/-- The same inside of a chain. -/
def SpL (x : M Unit) (nd : Node) : Prop :=
  ∀ s s', Inv s → (∃ d rest, s.stack = d :: rest) → depthOf s.sk ≠ some 0 → x s = .ok ((), s') →
    ∃ c, Gen s.env nd c s'.env ∧ Run s s' [] c

theorem Sp.link {x nd} (h : Sp x nd) : SpL x nd := fun s s' hi hs _ hx => h s s' hi hs hx

/-! ## Blocks and functions -/

theorem sp_block {x : M Unit} {k : BlockKind} {es : List Expr} {t : Option Expr} (hx : Sp x (.seq es t)) :
    Sp (inBlock k es t x) (.block k es t) := by
  intro s s' hi hs h
  unfold inBlock at h
  obtain ⟨_, s1, h1, h⟩ := M.bind_inv h
  obtain ⟨_, s2, h2, h⟩ := M.bind_inv h
  obtain ⟨_, s3, h3, h⟩ := M.bind_inv h
  have hi1 : Inv s1 := by obtain ⟨_, _, _, _, _, _, _, hi1⟩ := pushScope_facts hi h1; exact hi1
  have hs1 : ∃ d rest, s1.stack = d :: rest := by
    obtain ⟨_, _, _, _, rfl, _⟩ := pushScope_facts hi h1; exact ⟨_, _, rfl⟩
  have e1 := pushScope_env h1
  obtain ⟨e2, r2⟩ := scanItems_run hi1 hs1 h2
  obtain ⟨c, g3, r3⟩ := hx s2 s3 r2.inv r2.stack' h3
  have key : ∃ s4 sc s5 s6 s7, Run s3 s4 [] (match k with | .loop => .op .pop | .block => .nop) ∧ s4.env = s3.env ∧
      topScope s4 = .ok (sc, s5) ∧ closeUpvalues sc.variables s5 = .ok ((), s6) ∧ popScope s6 = .ok (s7, s') := by
    cases k with
    | loop =>
      obtain ⟨_, s4, h4, h⟩ := M.bind_inv h
      obtain ⟨sc, s5, h5, h⟩ := M.bind_inv h
      obtain ⟨_, s6, h6, h⟩ := M.bind_inv h
      obtain ⟨sc', s7, h7, h⟩ := M.bind_inv h
      obtain ⟨-, rfl⟩ := M.pure_inv h
      obtain ⟨r4, e4⟩ := emit_run r3.inv h4 rfl
      exact ⟨s4, sc, s5, s6, sc', r4, e4, h5, h6, h7⟩
    | block =>
      obtain ⟨sc, s5, h5, h⟩ := M.bind_inv h
      obtain ⟨_, s6, h6, h⟩ := M.bind_inv h
      obtain ⟨sc', s7, h7, h⟩ := M.bind_inv h
      obtain ⟨-, rfl⟩ := M.pure_inv h
      obtain ⟨d, rest, hs3⟩ := r3.stack'
      exact ⟨s3, sc, s5, s6, sc', .refl r3.inv hs3, rfl, h5, h6, h7⟩
  obtain ⟨s4, sc, s5, s6, sc', r4, e4, h5, h6, h7⟩ := key
  have hv := topScope_vars h5
  obtain ⟨rfl, -⟩ := topScope_inv h5
  obtain ⟨r6, e6⟩ := closeUpvalues_run r4.inv r4.stack' h6
  have e7 := popScope_env h7
  rw [e6, e4] at e7
  have hvars : sc.variables = sc'.variables := by
    rw [← hv, e4]
    obtain ⟨c0, rest0, tl, hs6, ht, rfl⟩ := popScope_inv h7
    rw [← e4, ← e6, env_cons hs6]
    simp [Env.topVars, Ctx.erase, ScopeStack.erase, ScopeStack.top?, ht, ScopeContext.erase]
  refine ⟨_, Gen.block e1 e2 g3 e7, run_block hi h1 (r2.after (r3.seq (r4.seq (.done ?_)))) h7⟩
  rw [← hvars]
  exact r6

theorem sp_fnBody {x : M Unit} {k : FnKind} {args : List FnArg} {es : List Expr} {t : Option Expr} (hx : Sp x (.seq es t)) :
    Sp (inFnBlock k args es t x) (.fnBody k args es t) := by
  intro s s' hi hs h
  unfold inFnBlock at h
  have key : (k = .constructor .derived → startsWithSuperCall es t = true) ∧ (do
      pushScope .block none
      visitArgDecls k args
      scanItems es t
      x
      let sc ← topScope
      closeUpvalues sc.variables
      visitFnEnd k
      let _ ← popScope
      pure () : M Unit) s = .ok ((), s') := by
    split at h
    · split at h
      · rename_i hss
        exact ⟨fun _ => hss, h⟩
      · obtain ⟨_, _, h1, _⟩ := M.bind_inv h
        exact (M.fail_inv h1).elim
    · rename_i hk
      exact ⟨fun h => (hk h).elim, h⟩
  clear h
  obtain ⟨hsup, h⟩ := key
  obtain ⟨_, s1, h1, h⟩ := M.bind_inv h
  obtain ⟨_, s2, h2, h⟩ := M.bind_inv h
  obtain ⟨_, s3, h3, h⟩ := M.bind_inv h
  obtain ⟨_, s4, h4, h⟩ := M.bind_inv h
  obtain ⟨sc, s5, h5, h⟩ := M.bind_inv h
  obtain ⟨_, s6, h6, h⟩ := M.bind_inv h
  obtain ⟨_, s7, h7, h⟩ := M.bind_inv h
  obtain ⟨sc', s8, h8, h⟩ := M.bind_inv h
  obtain ⟨-, rfl⟩ := M.pure_inv h
  have hi1 : Inv s1 := by obtain ⟨_, _, _, _, _, _, _, hi1⟩ := pushScope_facts hi h1; exact hi1
  have hs1 : ∃ d rest, s1.stack = d :: rest := by
    obtain ⟨_, _, _, _, rfl, _⟩ := pushScope_facts hi h1; exact ⟨_, _, rfl⟩
  have e1 := pushScope_env h1
  obtain ⟨c1, g2, r2⟩ := visitArgDecls_run hi1 hs1 h2
  obtain ⟨e3, r3⟩ := scanItems_run r2.inv r2.stack' h3
  obtain ⟨c2, g4, r4⟩ := hx s3 s4 r3.inv r3.stack' h4
  have hv := topScope_vars h5
  obtain ⟨rfl, -⟩ := topScope_inv h5
  obtain ⟨r6, e6⟩ := closeUpvalues_run r4.inv r4.stack' h6
  obtain ⟨c3, g7, r7⟩ := visitFnEnd_run r6.inv h7
  have e8 := popScope_env h8
  rw [e6] at g7
  exact ⟨_, Gen.fnBody hsup e1 g2 e3 g4 hv.symm g7 (by rw [e8]; rfl),
    run_block hi h1 (r2.seq (r3.after (r4.seq (r6.seq r7.done)))) h8⟩

/-- Compilation of a function. -/
theorem compileFn_run {x : M Unit} {k : FnKind} {args : List FnArg} {ret : Option TypeAnn} {es : List Expr} {t : Option Expr}
    (hx : Sp x (.seq es t)) {s s' : CState} (hi : Inv s) (hs : ∃ d rest, s.stack = d :: rest) {fn : Ctx}
    (h : compileFn k args ret es t x s = .ok (fn, s')) :
    ∃ c, (∀ j, k = .constructor j → ret = none) ∧
      Gen (s.env.pushFn (fnCompilerKind k ret)) (.fnBody k args es t) c (fn.erase :: s'.env) ∧
      FnCode fn.erase c fn.finish ∧ Run s s' [] .nop ∧ Quiets s.stack s'.stack ∧ s.nextId ≤ s'.nextId := by
  unfold compileFn at h
  have key : (∀ j, k = .constructor j → ret = none) ∧ (do
      pushCtx (fnCompilerKind k ret)
      inFnBlock k args es t x
      popCtx : M Ctx) s = .ok (fn, s') := by
    split at h
    · obtain ⟨_, _, h1, _⟩ := M.bind_inv h
      exact (M.fail_inv h1).elim
    · rename_i hk
      refine ⟨fun j hj => ?_, h⟩
      cases ret with
      | none => rfl
      | some r => exact (hk j r hj rfl).elim
  clear h
  obtain ⟨hret, h⟩ := key
  obtain ⟨_, s1, h1, h⟩ := M.bind_inv h
  obtain ⟨_, s2, h2, h⟩ := M.bind_inv h
  obtain ⟨hs1, hi1, e1⟩ := pushCtx_inv hi h1
  obtain ⟨c, g2, r2⟩ := sp_fnBody hx s1 s2 hi1 (by rw [hs1]; exact ⟨_, _, rfl⟩) h2
  obtain ⟨r3, e3, hc, hq, hn⟩ := run_fn hi hs h1 r2 h
  rw [e1, e3] at g2
  exact ⟨c, hret, g2, hc, r3, hq, hn⟩

theorem freshId_inv {s s' : CState} {id : Nat} (h : freshId s = .ok (id, s')) : id = s.nextId ∧ s' = { s with nextId := s.nextId + 1 } := by
  unfold freshId at h
  cases h
  exact ⟨rfl, rfl⟩

theorem freshId_run {s s' : CState} (hi : Inv s) (hs : ∃ d rest, s.stack = d :: rest) {id : Nat} (h : freshId s = .ok (id, s')) :
    Run s s' [] .nop ∧ s'.env = s.env ∧ id < s'.nextId ∧
      ∀ c ∈ s'.stack, ∀ code n, Const.fn code n id ∉ c.asm.constants := by
  obtain ⟨rfl, rfl⟩ := freshId_inv h
  obtain ⟨d, rest, hs⟩ := hs
  refine ⟨.quiet hi hs hs (.refl _) (.refl _) (by simp), rfl, by simp, ?_⟩
  intro c hc code n hm
  exact absurd ((hi c hc).ids _ _ _ hm).1 (Nat.lt_irrefl _)

theorem assertUniqueParams_inv {args : List FnArg} {s s' : CState} (h : assertUniqueParams args s = .ok ((), s')) :
    s' = s ∧ (args.map (·.name)).Nodup := by
  unfold assertUniqueParams at h
  split at h
  · rename_i hn
    exact ⟨(M.pure_inv h).2, hn⟩
  · exact (M.fail_inv h).elim

/-- A function value. -/
theorem fnValue_run {x : M Unit} {k : FnKind} {args : List FnArg} {ret : Option TypeAnn} {es : List Expr} {t : Option Expr}
    (hx : Sp x (.seq es t)) {s s1 s2 s3 : CState} (hi : Inv s) (hs : ∃ d rest, s.stack = d :: rest) {fn : Ctx} {id : Nat}
    {name : String} (h1 : compileFn k args ret es t x s = .ok (fn, s1)) (h2 : freshId s1 = .ok (id, s2))
    (h3 : emitFnValue fn name id s2 = .ok ((), s3)) :
    ∃ c, (∀ j, k = .constructor j → ret = none) ∧
      Gen (s.env.pushFn (fnCompilerKind k ret)) (.fnBody k args es t) c (fn.erase :: s3.env) ∧
      FnCode fn.erase c fn.finish ∧ Run s s3 [] (.instr (fnInstr fn.finish name id fn.erase.upvalues)) := by
  obtain ⟨c, hret, hg, hc, r1, -, -⟩ := compileFn_run hx hi hs h1
  obtain ⟨r2, e2, hid, hnew⟩ := freshId_run r1.inv r1.stack' h2
  obtain ⟨r3, e3⟩ := emitFnValue_run r2.inv h3 hnew hid hc.inner
  rw [e3, e2]
  exact ⟨c, hret, hg, hc, r1.after (r2.after r3)⟩

theorem sp_anonFn {args : List FnArg} {ret : Option TypeAnn} {body : Expr} {x : M Unit}
    (hx : Sp x (.seq (bodyExprs body) (bodyTrailing body))) :
    Sp (visitAnonFn args ret (bodyExprs body) (bodyTrailing body) x) (.expr (.anonFn args ret body)) := by
  intro s s' hi hs h
  unfold visitAnonFn at h
  obtain ⟨id, s1, h1, h⟩ := M.bind_inv h
  obtain ⟨fn, s2, h2, h⟩ := M.bind_inv h
  obtain ⟨r1, e1, hid, hnew⟩ := freshId_run hi hs h1
  obtain ⟨c, -, hg, hc, r2, hq, hn⟩ := compileFn_run hx r1.inv r1.stack' h2
  obtain ⟨r3, e3⟩ := emitFnValue_run r2.inv h
    (hq.fns (P := fun l => ∀ code n, Const.fn code n id ∉ l) hnew) (Nat.lt_of_lt_of_le hid hn) hc.inner
  rw [e1] at hg
  refine ⟨_, ?_, r1.after (r2.after r3)⟩
  rw [e3]
  exact Gen.anonFn (fn := fn.erase) hg hc

theorem sp_fnDecl {name : String} {args : List FnArg} {ret : Option TypeAnn} {body : Expr} {x : M Unit}
    (hx : Sp x (.seq (bodyExprs body) (bodyTrailing body))) :
    Sp (visitFnDecl .function name args ret (bodyExprs body) (bodyTrailing body) x) (.expr (.fnDecl name args ret body)) := by
  intro s s' hi hs h
  unfold visitFnDecl at h
  obtain ⟨_, s0, h0, h'⟩ := M.bind_inv h
  clear h
  obtain ⟨rfl, hu⟩ := assertUniqueParams_inv h0
  have h := h'
  clear h'
  obtain ⟨fn, s1, h1, h⟩ := M.bind_inv h
  obtain ⟨id, s2, h2, h⟩ := M.bind_inv h
  rw [if_pos rfl] at h
  unfold emitFnDecl at h
  obtain ⟨r, s3, h3, h⟩ := M.bind_inv h
  obtain ⟨rfl, hl, -⟩ := lookupLocal_inv h3
  obtain ⟨c, -, hg, hc, r1, hq, hn⟩ := compileFn_run hx hi hs h1
  obtain ⟨r2, e2, hid, hnew⟩ := freshId_run r1.inv r1.stack' h2
  cases r with
  | none => exact (M.fail_inv h).elim
  | some v =>
    have hst : v.state = .function false := by
      cases hst : v.state with
      | function b =>
        cases b with
        | false => rfl
        | true => simp only [hst] at h; exact (M.fail_inv h).elim
      | _ => simp only [hst] at h; exact (M.fail_inv h).elim
    simp only [hst] at h
    obtain ⟨_, s4, h4, h⟩ := M.bind_inv h
    obtain ⟨_, s5, h5, h⟩ := M.bind_inv h
    obtain ⟨r4, e4⟩ := setLocalState_run r2.inv h4
    have hnew4 : ∀ c ∈ s4.stack, ∀ code n, Const.fn code n id ∉ c.asm.constants := by
      unfold setLocalState at h4
      obtain ⟨c0, s6, h6, h7⟩ := M.bind_inv h4
      obtain ⟨rfl, rest, hs6⟩ := getCtx_inv h6
      obtain ⟨c7, rest7, hs7, rfl⟩ := setCtx_inv h7
      rw [hs6] at hs7
      cases hs7
      intro z hz
      rcases List.mem_cons.mp hz with rfl | hz
      · exact hnew c0 (by rw [hs6]; simp)
      · exact hnew z (by rw [hs6]; simp [hz])
    have hid4 : id < s4.nextId := by
      obtain ⟨E, X, hm, -⟩ := r4
      exact Nat.lt_of_lt_of_le hid hm.ids
    obtain ⟨r5, e5⟩ := emitFnValue_run r4.inv h5 hnew4 hid4 hc.inner
    obtain ⟨r6, e6⟩ := emit1_run r5.inv h rfl
    refine ⟨_, ?_, r1.after (r2.after (r4.after (r5.seq r6)))⟩
    rw [e6, e5, e4, e2]
    rw [e2] at hl
    exact Gen.fnDecl (fn := fn.erase) hu hg hc hl hst

theorem sp_opDecl {op : OverOp} {args : List FnArg} {ret : Option TypeAnn} {body : Expr} {x : M Unit}
    (hx : Sp x (.seq (bodyExprs body) (bodyTrailing body))) :
    Sp (visitOpDecl false op args ret (bodyExprs body) (bodyTrailing body) x) (.expr (.opDecl op args ret body)) := by
  intro s s' hi hs h
  unfold visitOpDecl at h
  obtain ⟨_, s0, h0, h'⟩ := M.bind_inv h
  clear h
  obtain ⟨rfl, hu⟩ := assertUniqueParams_inv h0
  have h := h'
  clear h'
  obtain ⟨fn, s1, h1, h⟩ := M.bind_inv h
  obtain ⟨id, s2, h2, h⟩ := M.bind_inv h
  obtain ⟨_, s3, h3, h⟩ := M.bind_inv h
  obtain ⟨c, -, hg, hc, r3⟩ := fnValue_run hx hi hs h1 h2 h3
  simp only [Bool.false_eq_true, if_false] at h
  obtain ⟨_, s4, h4, h⟩ := M.bind_inv h
  obtain ⟨r4, e4⟩ := emitConst_run r3.inv h4 rfl
  obtain ⟨r5, e5⟩ := emit_run r4.inv h rfl
  refine ⟨_, ?_, r3.seq (r4.seq r5.done)⟩
  rw [e5, e4]
  exact Gen.opDecl (fn := fn.erase) hu hg hc

/-! ## Literals -/

theorem sp_ident {x : String} : Sp (visitIdent x) (.expr (.ident x)) := by
  intro s s' hi _ h
  obtain ⟨i, g, r⟩ := visitIdent_run hi h
  exact ⟨_, .ident g, r⟩

theorem sp_emit {o : Opcode} {nd : Node} (ho : o.isPlain = true) (hg : ∀ g : Env, Gen g nd (.op o) g) : Sp (emit o) nd := by
  intro s s' hi _ h
  obtain ⟨r, e⟩ := emit_run hi h ho
  exact ⟨_, by rw [e]; exact hg _, r⟩

theorem sp_int {i : Int} : Sp (visitInt i) (.expr (.int i)) := by
  intro s s' hi _ h
  obtain ⟨r, e⟩ := visitInt_run hi h
  exact ⟨_, by rw [e]; exact .int, r⟩

theorem sp_float {f : Float} : Sp (visitFloat f) (.expr (.float f)) := by
  intro s s' hi _ h
  obtain ⟨c, hc, r, e⟩ := visitFloat_run hi h
  exact ⟨c, by rw [e]; exact .float hc, r⟩

theorem sp_str {t : String} : Sp (emitE fun a => a.pushConst (.str t)) (.expr (.str t)) := by
  intro s s' hi _ h
  obtain ⟨r, e⟩ := pushStr_run hi h
  exact ⟨_, by rw [e]; exact .str, r⟩

/-! ## Assignment -/

theorem AssignOp.notAssign {op : AssignOp} {o : Opcode} (h : AssignOp.opcode op = some o) : op ≠ .assign := by
  rintro rfl
  cases h

theorem assignLocal_sp {n : String} {op : AssignOp} {v : ScopeVar} {rhs : Expr} {x : M Unit} (hx : Sp x (.expr rhs)) {s s' : CState}
    (hi : Inv s) (hs : ∃ d rest, s.stack = d :: rest) (hv : s.env.lookup n = some v)
    (h : assignLocal n op v x s = .ok ((), s')) :
    ∃ c, Gen s.env (.expr (.assign op (.ident n) rhs)) c s'.env ∧ Run s s' [] c := by
  unfold assignLocal at h
  split at h
  · exact (M.fail_inv h).elim
  · rename_i hm
    have hm : v.isMutable = true := by simpa using hm
    split at h
    · obtain ⟨_, s1, h1, h⟩ := M.bind_inv h
      obtain ⟨c, g1, r1⟩ := hx _ _ hi hs h1
      obtain ⟨r2, e2⟩ := emit1_run r1.inv h rfl
      exact ⟨_, by rw [e2]; exact .assignLocal hv hm g1, r1.seq r2⟩
    · obtain ⟨_, s1, h1, h⟩ := M.bind_inv h
      obtain ⟨_, s2, h2, h⟩ := M.bind_inv h
      obtain ⟨_, s3, h3, h⟩ := M.bind_inv h
      obtain ⟨r1, e1⟩ := emit1_run hi h1 rfl
      obtain ⟨c, g2, r2⟩ := hx _ _ r1.inv r1.stack' h2
      obtain ⟨o, ho, r3, e3⟩ := emitOp_run r2.inv h3
      obtain ⟨r4, e4⟩ := emit1_run r3.inv h rfl
      rw [e1] at g2
      exact ⟨_, by rw [e4, e3]; exact .updateLocal hv hm ho g2, r1.seq (r2.seq (r3.seq r4.done))⟩

theorem assignUpvalue_sp {n : String} {op : AssignOp} {i : Nat} {rhs : Expr} {x : M Unit} (hx : Sp x (.expr rhs)) {s s0 s' : CState}
    (r0 : Run s s0 [] .nop) (hv : s.env.lookup n = none) (hr : resolveUpvalue n s.env = some (i, s0.env))
    (h : assignUpvalue n op i x s0 = .ok ((), s')) :
    ∃ c, Gen s.env (.expr (.assign op (.ident n) rhs)) c s'.env ∧ Run s s' [] c := by
  unfold assignUpvalue at h
  obtain ⟨cx, s1, h1, h2⟩ := M.bind_inv h
  clear h
  obtain ⟨rfl, rest, hs0⟩ := getCtx_inv h1
  cases hd : cx.upvalues[i]? with
  | none => simp only [hd] at h2; exact (M.fail_inv h2).elim
  | some d =>
    simp only [hd] at h2
    have hd' : (s1.env.head?.bind fun cx => cx.upvalues[i]?) = some d := by rw [env_cons hs0]; exact hd
    split at h2
    · exact (M.fail_inv h2).elim
    · rename_i hm
      have hm : d.isMutable = true := by simpa using hm
      split at h2
      · obtain ⟨_, s2, h3, h⟩ := M.bind_inv h2
        obtain ⟨c, g1, r1⟩ := hx _ _ r0.inv r0.stack' h3
        obtain ⟨r2, e2⟩ := emit1_run r1.inv h rfl
        exact ⟨_, by rw [e2]; exact .assignCaptured hv hr hd' hm g1, r0.after (r1.seq r2)⟩
      · obtain ⟨_, s2, h3, h⟩ := M.bind_inv h2
        obtain ⟨_, s3, h4, h⟩ := M.bind_inv h
        obtain ⟨_, s4, h5, h⟩ := M.bind_inv h
        obtain ⟨r1, e1⟩ := emit1_run r0.inv h3 rfl
        obtain ⟨c, g2, r2⟩ := hx _ _ r1.inv r1.stack' h4
        obtain ⟨o, ho, r3, e3⟩ := emitOp_run r2.inv h5
        obtain ⟨r4, e4⟩ := emit1_run r3.inv h rfl
        rw [e1] at g2
        exact ⟨_, by rw [e4, e3]; exact .updateCaptured hv hr hd' hm ho g2, r0.after (r1.seq (r2.seq (r3.seq r4.done)))⟩

theorem sp_assignIdent {n : String} {op : AssignOp} {rhs : Expr} {x : M Unit} (hx : Sp x (.expr rhs)) :
    Sp (assignIdent n op x) (.expr (.assign op (.ident n) rhs)) := by
  intro s s' hi hs h
  unfold assignIdent at h
  obtain ⟨r, s1, h1, h2⟩ := M.bind_inv h
  clear h
  obtain ⟨rfl, hl, -⟩ := lookupLocal_inv h1
  cases r with
  | some v => exact assignLocal_sp hx hi hs hl h2
  | none =>
    obtain ⟨r, s2, h3, h⟩ := M.bind_inv h2
    cases r with
    | none => exact (M.fail_inv h).elim
    | some i =>
      obtain ⟨r0, hr⟩ := resolve_some hi h3
      exact assignUpvalue_sp hx r0 hl hr h

theorem sp_assignField {f : String} {op : AssignOp} {e rhs : Expr} {x y : M Unit} (hx : Sp x (.expr e)) (hy : Sp y (.expr rhs)) :
    Sp (assignField f op x y) (.expr (.assign op (.field e f) rhs)) := by
  intro s s' hi hs h
  unfold assignField at h
  obtain ⟨_, s1, h1, h⟩ := M.bind_inv h
  obtain ⟨c1, g1, r1⟩ := hx _ _ hi hs h1
  split at h
  · obtain ⟨_, s2, h2, h⟩ := M.bind_inv h
    obtain ⟨c2, g2, r2⟩ := hy _ _ r1.inv r1.stack' h2
    obtain ⟨r3, e3⟩ := emitConst_run r2.inv h rfl
    exact ⟨_, by rw [e3]; exact .assignField g1 g2, r1.seq (r2.seq r3.done)⟩
  · obtain ⟨_, s2, h2, h⟩ := M.bind_inv h
    obtain ⟨_, s3, h3, h⟩ := M.bind_inv h
    obtain ⟨_, s4, h4, h⟩ := M.bind_inv h
    obtain ⟨_, s5, h5, h⟩ := M.bind_inv h
    obtain ⟨r2, e2⟩ := emit1_run r1.inv h2 rfl
    obtain ⟨r3, e3⟩ := emitConst_run r2.inv h3 rfl
    obtain ⟨c4, g4, r4⟩ := hy _ _ r3.inv r3.stack' h4
    obtain ⟨o, ho, r5, e5⟩ := emitOp_run r4.inv h5
    obtain ⟨r6, e6⟩ := emitConst_run r5.inv h rfl
    rw [e3, e2] at g4
    exact ⟨_, by rw [e6, e5]; exact .updateField ho g1 g4, r1.seq (r2.seq (r3.seq (r4.seq (r5.seq r6.done))))⟩

theorem sp_assignIndex {op : AssignOp} {e i rhs : Expr} {x y z : M Unit} (hx : Sp x (.expr e)) (hy : Sp y (.expr i)) (hz : Sp z (.expr rhs)) :
    Sp (assignIndex op x y z) (.expr (.assign op (.index e i) rhs)) := by
  intro s s' hi hs h
  unfold assignIndex at h
  obtain ⟨_, s1, h1, h⟩ := M.bind_inv h
  obtain ⟨c1, g1, r1⟩ := hx _ _ hi hs h1
  obtain ⟨_, s2, h2, h⟩ := M.bind_inv h
  obtain ⟨c2, g2, r2⟩ := hy _ _ r1.inv r1.stack' h2
  split at h
  · obtain ⟨_, s3, h3, h⟩ := M.bind_inv h
    obtain ⟨c3, g3, r3⟩ := hz _ _ r2.inv r2.stack' h3
    obtain ⟨r4, e4⟩ := emit_run r3.inv h rfl
    exact ⟨_, by rw [e4]; exact .assignIndex g1 g2 g3, r1.seq (r2.seq (r3.seq r4.done))⟩
  · obtain ⟨_, s3, h3, h⟩ := M.bind_inv h
    obtain ⟨_, s4, h4, h⟩ := M.bind_inv h
    obtain ⟨_, s5, h5, h⟩ := M.bind_inv h
    obtain ⟨_, s6, h6, h⟩ := M.bind_inv h
    obtain ⟨_, s7, h7, h⟩ := M.bind_inv h
    obtain ⟨r3, e3⟩ := emit1_run r2.inv h3 rfl
    obtain ⟨r4, e4⟩ := emit1_run r3.inv h4 rfl
    obtain ⟨r5, e5⟩ := emit_run r4.inv h5 rfl
    obtain ⟨c6, g6, r6⟩ := hz _ _ r5.inv r5.stack' h6
    obtain ⟨o, ho, r7, e7⟩ := emitOp_run r6.inv h7
    obtain ⟨r8, e8⟩ := emit_run r7.inv h rfl
    rw [e5, e4, e3] at g6
    exact ⟨_, by rw [e8, e7]; exact .updateIndex ho g1 g2 g6,
      r1.seq (r2.seq (r3.seq (r4.seq (r5.seq (r6.seq (r7.seq r8.done))))))⟩

/-! ## Operators -/

theorem sp_unary {op : UnaryOp} {e : Expr} {x : M Unit} (hx : Sp x (.expr e)) :
    Sp (do x; emit (match op with | .negate => .negate | .not => .not)) (.expr (.unary op e)) := by
  intro s s' hi hs h
  obtain ⟨_, s1, h1, h⟩ := M.bind_inv h
  obtain ⟨c, g1, r1⟩ := hx _ _ hi hs h1
  obtain ⟨r2, e2⟩ := emit_run r1.inv h (by cases op <;> rfl)
  exact ⟨_, by rw [e2]; exact .unary g1, r1.seq r2⟩

theorem BinaryOp.opcode_plain {op : BinaryOp} {o : Opcode} (h : op.opcode = some o) : o.isPlain = true := by
  cases op <;> simp [BinaryOp.opcode] at h <;> subst h <;> rfl

theorem sp_binary {op : BinaryOp} {a b : Expr} {x y : M Unit} (hx : Sp x (.expr a)) (hy : Sp y (.expr b)) :
    Sp (visitBinary op x y) (.expr (.binary op a b)) := by
  intro s s' hi hs h
  unfold visitBinary at h
  split at h
  · obtain ⟨_, s1, h1, h⟩ := M.bind_inv h
    obtain ⟨_, s2, h2, h⟩ := M.bind_inv h
    obtain ⟨_, s3, h3, h⟩ := M.bind_inv h
    obtain ⟨j, s4, h4, h⟩ := M.bind_inv h
    obtain ⟨_, s5, h5, h⟩ := M.bind_inv h
    obtain ⟨_, s6, h6, h⟩ := M.bind_inv h
    obtain ⟨_, s7, h7, h⟩ := M.bind_inv h
    obtain ⟨c1, g1, r1⟩ := hx _ _ hi hs h1
    obtain ⟨r2, e2⟩ := emit1_run r1.inv h2 rfl
    obtain ⟨r3, e3⟩ := emit_run r2.inv h3 rfl
    obtain ⟨e4, hi4⟩ := emitJump_env r3.inv h4
    obtain ⟨r5, e5⟩ := emit_run hi4 h5 rfl
    obtain ⟨c6, g6, r6⟩ := hy _ _ r5.inv r5.stack' h6
    obtain ⟨r7, e7⟩ := emit_run r6.inv h7 rfl
    have e8 := patch_env h
    rw [e5, e4, e3, e2] at g6
    exact ⟨_, by rw [e8, e7]; exact .and g1 g6,
      r1.seq (r2.seq (r3.seq (run_skip r3.inv (b := false) rfl h4 (r5.seq (r6.seq r7.done)) h).done))⟩
  · obtain ⟨_, s1, h1, h⟩ := M.bind_inv h
    obtain ⟨_, s2, h2, h⟩ := M.bind_inv h
    obtain ⟨_, s3, h3, h⟩ := M.bind_inv h
    obtain ⟨j, s4, h4, h⟩ := M.bind_inv h
    obtain ⟨_, s5, h5, h⟩ := M.bind_inv h
    obtain ⟨_, s6, h6, h⟩ := M.bind_inv h
    obtain ⟨_, s7, h7, h⟩ := M.bind_inv h
    obtain ⟨c1, g1, r1⟩ := hx _ _ hi hs h1
    obtain ⟨r2, e2⟩ := emit1_run r1.inv h2 rfl
    obtain ⟨r3, e3⟩ := emit_run r2.inv h3 rfl
    obtain ⟨e4, hi4⟩ := emitJump_env r3.inv h4
    obtain ⟨r5, e5⟩ := emit_run hi4 h5 rfl
    obtain ⟨c6, g6, r6⟩ := hy _ _ r5.inv r5.stack' h6
    obtain ⟨r7, e7⟩ := emit_run r6.inv h7 rfl
    have e8 := patch_env h
    rw [e5, e4, e3, e2] at g6
    exact ⟨_, by rw [e8, e7]; exact .or g1 g6,
      r1.seq (r2.seq (r3.seq (run_skip r3.inv (b := true) rfl h4 (r5.seq (r6.seq r7.done)) h).done))⟩
  · obtain ⟨_, s1, h1, h⟩ := M.bind_inv h
    obtain ⟨_, s2, h2, h⟩ := M.bind_inv h
    obtain ⟨c1, g1, r1⟩ := hy _ _ hi hs h1
    obtain ⟨c2, g2, r2⟩ := hx _ _ r1.inv r1.stack' h2
    obtain ⟨r3, e3⟩ := emit1_run r2.inv h rfl
    exact ⟨_, by rw [e3]; exact .pipeline g1 g2, r1.seq (r2.seq r3.done)⟩
  · obtain ⟨_, s1, h1, h⟩ := M.bind_inv h
    obtain ⟨_, s2, h2, h⟩ := M.bind_inv h
    obtain ⟨_, s3, h3, h⟩ := M.bind_inv h
    obtain ⟨_, s3', h3', h⟩ := M.bind_inv h
    obtain ⟨j, s4, h4, h⟩ := M.bind_inv h
    obtain ⟨_, s5, h5, h⟩ := M.bind_inv h
    obtain ⟨_, s6, h6, h⟩ := M.bind_inv h
    obtain ⟨c1, g1, r1⟩ := hx _ _ hi hs h1
    obtain ⟨r2, e2⟩ := emit1_run r1.inv h2 rfl
    obtain ⟨r3, e3⟩ := emit_run r2.inv h3 rfl
    obtain ⟨r3', e3'⟩ := emit_run r3.inv h3' rfl
    obtain ⟨e4, hi4⟩ := emitJump_env r3'.inv h4
    obtain ⟨r5, e5⟩ := emit_run hi4 h5 rfl
    obtain ⟨c6, g6, r6⟩ := hy _ _ r5.inv r5.stack' h6
    have e8 := patch_env h
    rw [e5, e4, e3', e3, e2] at g6
    exact ⟨_, by rw [e8]; exact .coalesce g1 g6,
      r1.seq (r2.seq (r3.seq (r3'.seq (run_skip r3'.inv (b := false) rfl h4 (r5.seq r6.done) h).done)))⟩
  · obtain ⟨_, s1, h1, h⟩ := M.bind_inv h
    obtain ⟨_, s2, h2, h⟩ := M.bind_inv h
    obtain ⟨c1, g1, r1⟩ := hx _ _ hi hs h1
    obtain ⟨c2, g2, r2⟩ := hy _ _ r1.inv r1.stack' h2
    cases ho : op.opcode with
    | none => simp only [ho] at h; exact (M.fail_inv h).elim
    | some o =>
      simp only [ho] at h
      obtain ⟨r3, e3⟩ := emit_run r2.inv h (BinaryOp.opcode_plain ho)
      exact ⟨_, by rw [e3]; exact .binary ho g1 g2, r1.seq (r2.seq r3.done)⟩

theorem sp_is {t : TypeAnn} {e : Expr} {x : M Unit} (hx : Sp x (.expr e)) : Sp (visitIs t x) (.expr (.is e t)) := by
  intro s s' hi hs h
  unfold visitIs at h
  split at h
  · rename_i hn
    obtain ⟨_, s1, h1, h⟩ := M.bind_inv h
    obtain ⟨_, s2, h2, h⟩ := M.bind_inv h
    obtain ⟨_, s3, h3, h⟩ := M.bind_inv h
    obtain ⟨_, s4, h4, h⟩ := M.bind_inv h
    obtain ⟨j, s5, h5, h⟩ := M.bind_inv h
    obtain ⟨_, s6, h6, h⟩ := M.bind_inv h
    obtain ⟨_, s7, h7, h⟩ := M.bind_inv h
    obtain ⟨_, s8, h8, h⟩ := M.bind_inv h
    obtain ⟨_, s9, h9, h⟩ := M.bind_inv h
    obtain ⟨c1, g1, r1⟩ := hx _ _ hi hs h1
    obtain ⟨r2, e2⟩ := emit_run r1.inv h2 rfl
    obtain ⟨r3, e3⟩ := emit_run r2.inv h3 rfl
    obtain ⟨r4, e4⟩ := emit1_run r3.inv h4 rfl
    obtain ⟨e5, hi5⟩ := emitJump_env r4.inv h5
    obtain ⟨r6, e6⟩ := emit_run hi5 h6 rfl
    obtain ⟨c7, g7, r7⟩ := hx _ _ r6.inv r6.stack' h7
    obtain ⟨i, g8, r8⟩ := visitIdent_run r7.inv h8
    obtain ⟨r9, e9⟩ := emit_run r8.inv h9 rfl
    have e10 := patch_env h
    rw [e6, e5, e4, e3, e2] at g7
    exact ⟨_, by rw [e10, e9]; exact .isNullable hn g1 g7 g8,
      r1.seq (r2.seq (r3.seq (r4.seq (run_skip r4.inv (b := true) rfl h5 (r6.seq (r7.seq (r8.seq r9.done))) h).done)))⟩
  · rename_i hn
    obtain ⟨_, s1, h1, h⟩ := M.bind_inv h
    obtain ⟨_, s2, h2, h⟩ := M.bind_inv h
    obtain ⟨c1, g1, r1⟩ := hx _ _ hi hs h1
    obtain ⟨i, g2, r2⟩ := visitIdent_run r1.inv h2
    obtain ⟨r3, e3⟩ := emit_run r2.inv h rfl
    exact ⟨_, by rw [e3]; exact .is (by simpa using hn) g1 g2, r1.seq (r2.seq r3.done)⟩

/-! ## Declarations -/

theorem sp_varDecl {kind : VarKind} {m : Bool} {t : Option TypeAnn} {e : Expr} {x : M Unit} (hx : Sp x (.expr e)) :
    Sp (do x; visitVarDecl kind m t) (.expr (.varDecl kind m e t)) := by
  intro s s' hi hs h
  obtain ⟨_, s1, h1, h⟩ := M.bind_inv h
  obtain ⟨c, g1, r1⟩ := hx _ _ hi hs h1
  cases kind with
  | singular n =>
    unfold visitVarDecl at h
    obtain ⟨slot, s2, h2, h⟩ := M.bind_inv h
    obtain ⟨_, s3, h3, h⟩ := M.bind_inv h
    obtain ⟨r2, e2⟩ := addLocal_run r1.inv h2
    obtain ⟨r3, e3⟩ := emit1_run r2.inv h3 rfl
    obtain ⟨ct, gt, r4⟩ := visitLocalType_run r3.inv r3.stack' h
    rw [e3] at gt
    exact ⟨_, .varDecl g1 e2 gt, r1.seq (r2.after (r3.seq r4.done))⟩
  | destructured ns =>
    unfold visitVarDecl at h
    obtain ⟨l, s2, h2, h⟩ := M.bind_inv h
    obtain ⟨r2, e2⟩ := addLocals_run ns r1.inv r1.stack' h2
    obtain ⟨r3, e3⟩ := emitFieldLocals_run l r2.inv r2.stack' h
    exact ⟨_, by rw [e3]; exact .varDecls g1 e2, r1.seq (r2.after r3)⟩

theorem sp_import {m : Option String} {items : List String} {path : String} :
    Sp (visitImport m items path) (.expr (.importDecl m items path)) := by
  intro s s' hi hs h
  unfold visitImport at h
  obtain ⟨l, s1, h1, h⟩ := M.bind_inv h
  obtain ⟨_, s2, h2, h⟩ := M.bind_inv h
  obtain ⟨_, s3, h3, h⟩ := M.bind_inv h
  obtain ⟨r1, e1⟩ := addLocals_run items hi hs h1
  obtain ⟨r2, e2⟩ := emitConst_run r1.inv h2 rfl
  obtain ⟨r3, e3⟩ := emitFieldLocals_run l r2.inv r2.stack' h3
  cases m with
  | none =>
    obtain ⟨-, rfl⟩ := M.pure_inv h
    exact ⟨_, by rw [e3, e2]; exact .importItems e1, r1.after (r2.seq r3)⟩
  | some m =>
    obtain ⟨slot, s4, h4, h⟩ := M.bind_inv h
    obtain ⟨r4, e4⟩ := addLocal_run r3.inv h4
    obtain ⟨r5, e5⟩ := emit1_run r4.inv h rfl
    rw [e3, e2] at e4
    exact ⟨_, by rw [e5]; exact .importModule e1 e4, r1.after (r2.seq (r3.seq (r4.after r5.done)))⟩

/-! ## Control flow -/

theorem emitJump_stack {s s1 : CState} {o : Opcode} {p : Nat} (h : emitJump o s = .ok (p, s1)) :
    ∃ d rest, s1.stack = d :: rest := by
  obtain ⟨_, _, _, _, rfl, _⟩ := emitJump_inv h
  exact ⟨_, _, rfl⟩

theorem patch_facts {s s1 : CState} (hi : Inv s) {p : Nat} (h : patch p s = .ok ((), s1)) :
    s1.env = s.env ∧ Inv s1 ∧ ∃ d rest, s1.stack = d :: rest := by
  have he := patch_env h
  obtain ⟨x, rest, x1, hs, rfl, hp, hsk, her⟩ := patch_inv h
  exact ⟨he, hi.setTop hs (hp.ok (hi.top hs) hsk), _, _, rfl⟩

theorem patchAll_env : (Z : List Nat) → {s s1 : CState} → patchAll Z s = .ok ((), s1) → s1.env = s.env
  | [], _, _, h => by
    obtain ⟨-, rfl⟩ := M.pure_inv h
    rfl
  | p :: Z, s, s1, h => by
    obtain ⟨_, s2, h1, h2⟩ := M.bind_inv h
    rw [patchAll_env Z h2, patch_env h1]

theorem sp_if {a b : Expr} {e : Option Expr} {x y z : M Unit} (hx : Sp x (.expr a)) (hy : Sp y (.expr b)) (hz : Sp z (.els e)) :
    Sp (visitIf x y z) (.expr (.ifExpr a b e)) := by
  intro s s' hi hs h
  unfold visitIf at h
  obtain ⟨_, s1, h1, h⟩ := M.bind_inv h
  obtain ⟨p, s2, h2, h⟩ := M.bind_inv h
  obtain ⟨_, s3, h3, h⟩ := M.bind_inv h
  obtain ⟨q, s4, h4, h⟩ := M.bind_inv h
  obtain ⟨_, s5, h5, h⟩ := M.bind_inv h
  obtain ⟨_, s6, h6, h⟩ := M.bind_inv h
  obtain ⟨c1, g1, r1⟩ := hx _ _ hi hs h1
  obtain ⟨e2, hi2⟩ := emitJump_env r1.inv h2
  have hs2 := emitJump_stack h2
  obtain ⟨c3, g3, r3⟩ := hy _ _ hi2 hs2 h3
  obtain ⟨e4, hi4⟩ := emitJump_env r3.inv h4
  obtain ⟨e5, hi5, hs5⟩ := patch_facts hi4 h5
  obtain ⟨c6, g6, r6⟩ := hz _ _ hi5 hs5 h6
  have e7 := patch_env h
  rw [e2] at g3
  rw [e5, e4] at g6
  exact ⟨_, by rw [e7]; exact .ifExpr g1 g3 g6, r1.seq (run_branch r1.inv h2 r3 h4 h5 (fun _ => r6) h)⟩

theorem pushScope_ok {s s1 : CState} (hi : Inv s) {kind : ScopeKind} {entry : Option Nat}
    (h : pushScope kind entry s = .ok ((), s1)) : Inv s1 ∧ ∃ d rest, s1.stack = d :: rest := by
  obtain ⟨_, _, _, _, rfl, _, _, hi1⟩ := pushScope_facts hi h
  exact ⟨hi1, _, _, rfl⟩

theorem sp_loop {es : List Expr} {t : Option Expr} {x : M Unit} (hx : Sp x (.block .loop es t)) :
    Sp (visitLoop x) (.expr (.loop (.block es t))) := by
  intro s s' hi hs h
  unfold visitLoop at h
  obtain ⟨start, s0, h0, h⟩ := M.bind_inv h
  obtain ⟨_, s1, h1, h⟩ := M.bind_inv h
  obtain ⟨_, s2, h2, h⟩ := M.bind_inv h
  obtain ⟨_, s3, h3, h⟩ := M.bind_inv h
  obtain ⟨sc, s5, h5, h⟩ := M.bind_inv h
  obtain ⟨_, s6, h6, hl⟩ := M.bind_inv h
  clear h
  have hs0 := (position_inv h0).1
  subst hs0
  have e1 := pushScope_env h1
  obtain ⟨hi1, hs1⟩ := pushScope_ok hi h1
  obtain ⟨c, g, r⟩ := hx _ _ hi1 hs1 h2
  obtain ⟨rl, e4, e6⟩ := run_loop hi h0 h1 r h3 (rfl : patchAll [] s3 = .ok ((), s3)) h5 h6
  have e5 := popScope_env h5
  obtain ⟨r7, e7⟩ := emit_run rl.inv hl rfl
  rw [e4] at e5
  exact ⟨_, by rw [e7, e6]; exact .loop e1 g e5, rl.seq r7⟩

theorem sp_while {a : Expr} {es : List Expr} {t : Option Expr} {x y : M Unit} (hx : Sp x (.expr a)) (hy : Sp y (.block .loop es t)) :
    Sp (visitWhile x y) (.expr (.whileLoop a (.block es t))) := by
  intro s s' hi hs h
  unfold visitWhile at h
  obtain ⟨start, s0, h0, h⟩ := M.bind_inv h
  obtain ⟨_, s1, h1, h⟩ := M.bind_inv h
  obtain ⟨_, s2, h2, h⟩ := M.bind_inv h
  obtain ⟨p, s3, h3, h⟩ := M.bind_inv h
  obtain ⟨_, s4, h4, h⟩ := M.bind_inv h
  obtain ⟨_, s5, h5, h⟩ := M.bind_inv h
  obtain ⟨_, s6, h6, h⟩ := M.bind_inv h
  obtain ⟨sc, s7, h7, h⟩ := M.bind_inv h
  obtain ⟨_, s8, h8, hl⟩ := M.bind_inv h
  clear h
  have hs0 := (position_inv h0).1
  subst hs0
  have e1 := pushScope_env h1
  obtain ⟨hi1, hs1⟩ := pushScope_ok hi h1
  obtain ⟨c2, g2, r2⟩ := hx _ _ hi1 hs1 h2
  have r3 := breakIf_run r2.inv (b := false) rfl h3
  have e3 := (emitJump_env r2.inv h3).1
  obtain ⟨c4, g4, r4⟩ := hy _ _ r3.inv r3.stack' h4
  obtain ⟨rl, e6, e8⟩ := run_loop (L := [p]) hi h0 h1 (r2.seq (r3.seq r4.done)) h5 (patchAll_one h6) h7 h8
  have e7 := popScope_env h7
  obtain ⟨r9, e9⟩ := emit_run rl.inv hl rfl
  rw [e6] at e7
  rw [e3] at g4
  exact ⟨_, by rw [e9, e8]; exact .whileLoop e1 g2 g4 e7, rl.seq r9⟩

theorem sp_range {op : BinaryOp} {incl : Bool} {v : String} {a b body : Expr} {x y z : M Unit}
    (hop : op = .rangeInclusive ∧ incl = true ∨ op = .rangeExclusive ∧ incl = false)
    (hx : Sp x (.expr a)) (hy : Sp y (.expr b)) (hz : Sp z (.expr body)) :
    Sp (visitRangeLoop incl v x y z) (.expr (.forLoop v (.binary op a b) body)) := by
  intro s s' hi hs h
  unfold visitRangeLoop at h
  have hop' : op = .rangeInclusive ∨ op = .rangeExclusive := by
    rcases hop with ⟨h, -⟩ | ⟨h, -⟩
    · exact .inl h
    · exact .inr h
  have ho : (if incl = true then Opcode.lessThanOrEqual else .lessThan) =
      if op = .rangeInclusive then Opcode.lessThanOrEqual else .lessThan := by
    rcases hop with ⟨rfl, rfl⟩ | ⟨rfl, rfl⟩ <;> rfl
  rw [ho] at h
  obtain ⟨_, s1, h1, h⟩ := M.bind_inv h
  obtain ⟨_, s2, h2, h⟩ := M.bind_inv h
  obtain ⟨start, s2', h2', h⟩ := M.bind_inv h
  obtain ⟨_, s3, h3, h⟩ := M.bind_inv h
  obtain ⟨slot, s4, h4, h⟩ := M.bind_inv h
  obtain ⟨_, s5, h5, h⟩ := M.bind_inv h
  obtain ⟨_, s6, h6, h⟩ := M.bind_inv h
  obtain ⟨_, s7, h7, h⟩ := M.bind_inv h
  obtain ⟨p, s8, h8, h⟩ := M.bind_inv h
  obtain ⟨_, s9, h9, h⟩ := M.bind_inv h
  obtain ⟨_, s10, h10, h⟩ := M.bind_inv h
  obtain ⟨_, s11, h11, h⟩ := M.bind_inv h
  obtain ⟨_, s12, h12, h⟩ := M.bind_inv h
  obtain ⟨_, s13, h13, h⟩ := M.bind_inv h
  obtain ⟨sc, s14, h14, h⟩ := M.bind_inv h
  obtain ⟨_, s15, h15, h⟩ := M.bind_inv h
  obtain ⟨_, s16, h16, h⟩ := M.bind_inv h
  obtain ⟨_, s17, h17, h⟩ := M.bind_inv h
  obtain ⟨_, s18, h18, h⟩ := M.bind_inv h
  obtain ⟨_, s19, h19, hl⟩ := M.bind_inv h
  clear h
  have hs0 := (position_inv h2').1
  subst hs0
  obtain ⟨c1, g1, r1⟩ := hy _ _ hi hs h1
  obtain ⟨c2, g2, r2⟩ := hx _ _ r1.inv r1.stack' h2
  have e3 := pushScope_env h3
  obtain ⟨hi3, hs3⟩ := pushScope_ok r2.inv h3
  obtain ⟨r4, e4⟩ := addLocal_run hi3 h4
  obtain ⟨r5, e5⟩ := emit1_run r4.inv h5 rfl
  obtain ⟨r6, e6⟩ := emit1_run r5.inv h6 rfl
  obtain ⟨r7, e7⟩ := emit_run r6.inv h7 (by split <;> rfl)
  have r8 := breakIf_run r7.inv (b := false) rfl h8
  have e8 := (emitJump_env r7.inv h8).1
  obtain ⟨c9, g9, r9⟩ := hz _ _ r8.inv r8.stack' h9
  obtain ⟨r10, e10⟩ := emit_run r9.inv h10 rfl
  obtain ⟨r11, e11⟩ := emit1_run r10.inv h11 rfl
  obtain ⟨r12, e12⟩ := emit_run r11.inv h12 rfl
  obtain ⟨r13, e13⟩ := emit_run r12.inv h13 rfl
  have e14 := popScope_env h14
  obtain ⟨_, _, _, _, hs14', _, _, hi14⟩ := popScope_facts r13.inv h14
  have hs14 : ∃ d rest, s14.stack = d :: rest := by subst hs14'; exact ⟨_, _, rfl⟩
  obtain ⟨m15, e15⟩ := closeUpvalues_moves _ hi14 hs14 h15
  obtain ⟨rl, e18⟩ := run_for (L := [p]) (c2 := .block [closeCode sc.variables]) r2.inv h2' h3
    (r4.after (r5.seq (r6.seq (r7.seq (r8.seq (r9.seq (r10.seq (r11.seq (r12.seq r13.done))))))))) h14
    (fun _ => m15.mono fun D p q tb tc te h => ⟨q, h, rfl⟩) h16 (patchAll_one h17) h18
  have rl := rl.conv fun D p q tb tc te h => layout_loop_append (ys := [closeCode sc.variables])
    (xs := [.num .storeLocal slot, .num .dup 1,
      .op (if op = .rangeInclusive then .lessThanOrEqual else .lessThan), .breakIf false, c9, .op .pop,
      .num .loadLocal slot, .op .pushI1, .op .add]) h
  obtain ⟨r19, e19⟩ := emit_run rl.inv h19 rfl
  obtain ⟨r20, e20⟩ := emit_run r19.inv hl rfl
  rw [e8, e7, e6, e5] at g9
  rw [e13, e12, e11, e10] at e14
  exact ⟨_, by rw [e20, e19, e18, e15]; exact .rangeLoop hop' g1 g2 e3 e4 g9 e14,
    r1.seq (r2.seq (rl.seq (r19.seq r20.done)))⟩

theorem sp_for {v : String} {src body : Expr} {x y : M Unit}
    (hns : ∀ a b, src ≠ .binary .rangeInclusive a b ∧ src ≠ .binary .rangeExclusive a b)
    (hx : Sp x (.expr src)) (hy : Sp y (.expr body)) : Sp (visitFor v x y) (.expr (.forLoop v src body)) := by
  intro s s' hi hs h
  unfold visitFor at h
  obtain ⟨_, s1, h1, h⟩ := M.bind_inv h
  obtain ⟨_, s2, h2, h⟩ := M.bind_inv h
  obtain ⟨_, s3, h3, h⟩ := M.bind_inv h
  obtain ⟨_, s4, h4, h⟩ := M.bind_inv h
  obtain ⟨start, s4', h4', h⟩ := M.bind_inv h
  obtain ⟨_, s5, h5, h⟩ := M.bind_inv h
  obtain ⟨slot, s6, h6, h⟩ := M.bind_inv h
  obtain ⟨_, s7, h7, h⟩ := M.bind_inv h
  obtain ⟨_, s8, h8, h⟩ := M.bind_inv h
  obtain ⟨_, s9, h9, h⟩ := M.bind_inv h
  obtain ⟨_, s10, h10, h⟩ := M.bind_inv h
  obtain ⟨p, s11, h11, h⟩ := M.bind_inv h
  obtain ⟨_, s12, h12, h⟩ := M.bind_inv h
  obtain ⟨_, s13, h13, h⟩ := M.bind_inv h
  obtain ⟨_, s14, h14, h⟩ := M.bind_inv h
  obtain ⟨sc, s15, h15, h⟩ := M.bind_inv h
  obtain ⟨_, s16, h16, h⟩ := M.bind_inv h
  obtain ⟨_, s17, h17, h⟩ := M.bind_inv h
  obtain ⟨_, s18, h18, h⟩ := M.bind_inv h
  obtain ⟨_, s19, h19, h⟩ := M.bind_inv h
  obtain ⟨_, s20, h20, h⟩ := M.bind_inv h
  obtain ⟨_, s21, h21, h⟩ := M.bind_inv h
  obtain ⟨_, s22, h22, hl⟩ := M.bind_inv h
  clear h
  have hs0 := (position_inv h4').1
  subst hs0
  obtain ⟨c1, g1, r1⟩ := hx _ _ hi hs h1
  obtain ⟨r2, e2⟩ := emitConst_run r1.inv h2 rfl
  obtain ⟨r3, e3⟩ := emit1_run r2.inv h3 rfl
  obtain ⟨r4, e4⟩ := emitConst_run r3.inv h4 rfl
  have e5 := pushScope_env h5
  obtain ⟨hi5, hs5⟩ := pushScope_ok r4.inv h5
  obtain ⟨r6, e6⟩ := addLocal_run hi5 h6
  obtain ⟨r7, e7⟩ := emit1_run r6.inv h7 rfl
  obtain ⟨r8, e8⟩ := emit1_run r7.inv h8 rfl
  obtain ⟨r9, e9⟩ := emit1_run r8.inv h9 rfl
  obtain ⟨r10, e10⟩ := emitConst_run r9.inv h10 rfl
  have r11 := breakIf_run r10.inv (b := true) rfl h11
  have e11 := (emitJump_env r10.inv h11).1
  obtain ⟨r12, e12⟩ := fieldToLocal_run r11.inv h12
  obtain ⟨r13, e13⟩ := emit_run r12.inv h13 rfl
  obtain ⟨c14, g14, r14⟩ := hy _ _ r13.inv r13.stack' h14
  have e15 := popScope_env h15
  obtain ⟨_, _, _, _, hs15', _, _, hi15⟩ := popScope_facts r14.inv h15
  have hs15 : ∃ d rest, s15.stack = d :: rest := by subst hs15'; exact ⟨_, _, rfl⟩
  obtain ⟨m16, e16⟩ := emit_moves hi15 h16 rfl
  have hs16 : ∃ d rest, s16.stack = d :: rest := m16.plain.stack'
  obtain ⟨m17, e17⟩ := closeUpvalues_moves _ m16.inv hs16 h17
  obtain ⟨rl, e20⟩ := run_for (L := [p]) (c2 := .block [.op .pop, closeCode sc.variables]) r4.inv h4' h5
    (r6.after (r7.seq (r8.seq (r9.seq (r10.seq (r11.seq (r12.seq (r13.seq r14.done)))))))) h15
    (fun _ => (m16.seq (m17.mono fun D p q tb tc te h => ⟨q, h, rfl⟩)).mono fun D p q tb tc te h => h) h18 (patchAll_one h19) h20
  have rl := rl.conv fun D p q tb tc te h => layout_loop_append (ys := [.op .pop, closeCode sc.variables])
    (xs := [.num .dup 0, .num .call 0, .num .dup 0, .sym .loadField "is_done", .breakIf true,
      .instr (.fieldToLocal "value" (UInt8.ofNat slot)), .op .pop, c14]) h
  obtain ⟨r21, e21⟩ := emit_run rl.inv h21 rfl
  obtain ⟨r22, e22⟩ := emit_run r21.inv h22 rfl
  obtain ⟨r23, e23⟩ := emit_run r22.inv hl rfl
  rw [e4, e3, e2] at e5
  rw [e13, e12, e11, e10, e9, e8, e7] at g14
  exact ⟨_, by rw [e23, e22, e21, e20, e17, e16]; exact .forLoop hns g1 e5 e6 g14 e15,
    r1.seq (r2.seq (r3.seq (r4.seq (rl.seq (r21.seq (r22.seq r23.done))))))⟩

theorem sp_break : Sp visitBreak (.expr .break_) := by
  intro s s' hi hs h
  obtain ⟨hl, e, r⟩ := visitBreak_run hi h
  exact ⟨_, by rw [e]; exact .break_ hl, r⟩

theorem sp_continue : Sp visitContinue (.expr .continue_) := by
  intro s s' hi hs h
  obtain ⟨hl, e, r⟩ := visitContinue_run hi h
  exact ⟨_, by rw [e]; exact .continue_ hl, r⟩

/-- The part of `return` after its value. -/
theorem returnTail_run {s s' : CState} (hi : Inv s) (hs : ∃ d rest, s.stack = d :: rest)
    (h : (do let n ← getTemporaries; dropTemporaries n; visitReturn : M Unit) s = .ok ((), s')) :
    ∃ c, ReturnGen s.env c s'.env ∧ Run s s' [] (.block [dropCode s.env.temps, c]) := by
  obtain ⟨n, s1, h1, h2⟩ := M.bind_inv h
  clear h
  obtain ⟨rfl, rfl⟩ := getTemporaries_inv h1
  obtain ⟨_, s2, h3, h4⟩ := M.bind_inv h2
  obtain ⟨r3, e3⟩ := dropTemporaries_run _ hi hs h3
  obtain ⟨c, g4, r4⟩ := visitReturn_run r3.inv h4
  rw [e3] at g4
  exact ⟨c, g4, r3.seq r4.done⟩

theorem sp_returnSome {e : Expr} {x : M Unit} (hx : Sp x (.expr e)) : Sp (visitReturnExpr true x) (.expr (.return_ (some e))) := by
  intro s s' hi hs h
  unfold visitReturnExpr at h
  obtain ⟨c, s1, h1, h2⟩ := M.bind_inv h
  clear h
  obtain ⟨rfl, hk⟩ := getCtx_kind h1
  have key : (∃ r, c.kind = .function r ∨ c.kind = .method r) ∧
      (do x; let n ← getTemporaries; dropTemporaries n; visitReturn : M Unit) s1 = .ok ((), s') := by
    cases hc : c.kind with
    | function r => rw [hc] at h2; exact ⟨⟨r, .inl rfl⟩, h2⟩
    | method r => rw [hc] at h2; exact ⟨⟨r, .inr rfl⟩, h2⟩
    | _ =>
      rw [hc] at h2
      obtain ⟨_, _, h3, -⟩ := M.bind_inv h2
      exact (M.fail_inv h3).elim
  obtain ⟨hf, h⟩ := key
  obtain ⟨_, s2, h3, h4⟩ := M.bind_inv h
  obtain ⟨ce, g3, r3⟩ := hx _ _ hi hs h3
  obtain ⟨cr, g4, r4⟩ := returnTail_run r3.inv r3.stack' h4
  exact ⟨_, .returnValue hk hf g3 g4, r3.seq r4⟩

theorem sp_returnNone : Sp (visitReturnExpr false (pure ())) (.expr (.return_ none)) := by
  intro s s' hi hs h
  unfold visitReturnExpr at h
  obtain ⟨c, s1, h1, h2⟩ := M.bind_inv h
  clear h
  obtain ⟨rest, hst⟩ := (getCtx_inv h1).2
  obtain ⟨rfl, hk⟩ := getCtx_kind h1
  have fin : ∀ (hf : ∃ r, c.kind = .function r ∨ c.kind = .method r)
      (_ : (do emit .pushUnit; let n ← getTemporaries; dropTemporaries n; visitReturn : M Unit) s1 = .ok ((), s')),
      ∃ c, Gen s1.env (.expr (.return_ none)) c s'.env ∧ Run s1 s' [] c := by
    intro hf h
    obtain ⟨_, s2, h3, h4⟩ := M.bind_inv h
    obtain ⟨r3, e3⟩ := emit_run hi h3 rfl
    obtain ⟨cr, g4, r4⟩ := returnTail_run r3.inv r3.stack' h4
    rw [e3] at g4 r4
    exact ⟨_, .returnUnit hk hf g4, r3.seq r4⟩
  cases hc : c.kind with
  | function r => rw [hc] at h2; exact fin ⟨r, .inl hc⟩ h2
  | method r => rw [hc] at h2; exact fin ⟨r, .inr hc⟩ h2
  | constructor =>
    rw [hc] at h2 hk
    simp only [Bool.false_eq_true, if_false] at h2
    cases hv : c.scopes.local? nameSelf with
    | none =>
      rw [hv] at h2
      obtain ⟨_, _, h3, -⟩ := M.bind_inv h2
      exact (M.fail_inv h3).elim
    | some v =>
      rw [hv] at h2
      have hv' : s1.env.lookup nameSelf = some v := by
        rw [env_cons hst]
        exact (local?_erase _ _).trans hv
      obtain ⟨_, s2, h3, h4⟩ := M.bind_inv h2
      obtain ⟨r3, e3⟩ := emit1_run hi h3 rfl
      obtain ⟨cr, g4, r4⟩ := returnTail_run r3.inv r3.stack' h4
      rw [e3] at g4 r4
      exact ⟨_, .returnSelf hk hv' g4, r3.seq r4⟩
  | _ =>
    rw [hc] at h2
    obtain ⟨_, _, h3, -⟩ := M.bind_inv h2
    exact (M.fail_inv h3).elim

/-! ## Chains -/

theorem sp_chain {e : Expr} {x : M Unit} (he : e.isLink = true) (hx : SpL x (.link e)) : Sp (inCall x) (.expr e) := by
  intro s s' hi hs h
  unfold inCall at h
  obtain ⟨_, s1, h1, h⟩ := M.bind_inv h
  obtain ⟨_, s2, h2, h⟩ := M.bind_inv h
  obtain ⟨d0, -, -, -, hd1, hi1, _, _, _, _, _, -, hs1, -⟩ := enterCall_facts hi h1
  have hs1' : ∃ d rest, s1.stack = d :: rest := by subst hs1; exact ⟨_, _, rfl⟩
  obtain ⟨c, g, r⟩ := hx _ _ hi1 hs1' (by rw [hd1]; simp) h2
  obtain ⟨d, d', hd, h0, hd', h3, rc⟩ := run_call hi h1 r h
  exact ⟨_, .chain he hd h0 g hd' h3, rc⟩

theorem sp_nullProp {e : Expr} {x : M Unit} (hx : Sp x (.expr e)) : SpL (visitNullProp x) (.link (.nullProp e)) := by
  intro s s' hi hs hd h
  unfold visitNullProp at h
  obtain ⟨_, s1, h1, h⟩ := M.bind_inv h
  obtain ⟨_, s2, h2, h⟩ := M.bind_inv h
  obtain ⟨_, s3, h3, h⟩ := M.bind_inv h
  obtain ⟨_, s4, h4, h⟩ := M.bind_inv h
  obtain ⟨j, s5, h5, h⟩ := M.bind_inv h
  obtain ⟨sc, s6, h6, hl⟩ := M.bind_inv h
  clear h
  have hs6 := (topScope_inv h6).1
  subst hs6
  obtain ⟨c1, g1, r1⟩ := hx _ _ hi hs h1
  obtain ⟨r2, e2⟩ := emit1_run r1.inv h2 rfl
  obtain ⟨r3, e3⟩ := emit_run r2.inv h3 rfl
  obtain ⟨r4, e4⟩ := emit_run r3.inv h4 rfl
  obtain ⟨e5, r5⟩ := exitIf_run r4.inv (by rw [r4.depthOf, r3.depthOf, r2.depthOf, r1.depthOf]; exact hd) h5 h6 hl
  exact ⟨_, by rw [e5, e4, e3, e2]; exact .nullProp g1, r1.seq (r2.seq (r3.seq (r4.seq r5.done)))⟩

theorem sp_errProp {e : Expr} {x : M Unit} (hx : Sp x (.expr e)) : Sp (visitErrProp x) (.link (.errProp e)) := by
  intro s s' hi hs h
  unfold visitErrProp at h
  obtain ⟨c, s1, h1, h2⟩ := M.bind_inv h
  clear h
  obtain ⟨rfl, hk⟩ := getCtx_kind h1
  have key : (∃ r, c.kind = .function r ∨ c.kind = .method r) ∧ (do
      x
      let n ← getTemporaries
      emit1 .dup 0
      emitConst .loadField "is_ok"
      let j ← emitJump .jumpIfTrue
      dropTemporaries n
      visitReturn
      patch j
      emitConst .loadField "result" : M Unit) s1 = .ok ((), s') := by
    cases hc : c.kind with
    | function r => rw [hc] at h2; exact ⟨⟨r, .inl rfl⟩, h2⟩
    | method r => rw [hc] at h2; exact ⟨⟨r, .inr rfl⟩, h2⟩
    | _ =>
      rw [hc] at h2
      obtain ⟨_, _, h3, -⟩ := M.bind_inv h2
      exact (M.fail_inv h3).elim
  clear h2
  obtain ⟨hf, h⟩ := key
  obtain ⟨_, s2, h2, h⟩ := M.bind_inv h
  obtain ⟨n, s3, h3, h⟩ := M.bind_inv h
  obtain ⟨_, s4, h4, h⟩ := M.bind_inv h
  obtain ⟨_, s5, h5, h⟩ := M.bind_inv h
  obtain ⟨j, s6, h6, h⟩ := M.bind_inv h
  obtain ⟨_, s7, h7, h⟩ := M.bind_inv h
  obtain ⟨_, s8, h8, h⟩ := M.bind_inv h
  obtain ⟨_, s9, h9, hl⟩ := M.bind_inv h
  clear h
  obtain ⟨rfl, rfl⟩ := getTemporaries_inv h3
  obtain ⟨c2, g2, r2⟩ := hx _ _ hi hs h2
  obtain ⟨r4, e4⟩ := emit1_run r2.inv h4 rfl
  obtain ⟨r5, e5⟩ := emitConst_run r4.inv h5 rfl
  obtain ⟨e6, hi6⟩ := emitJump_env r5.inv h6
  obtain ⟨r7, e7⟩ := dropTemporaries_run _ hi6 (emitJump_stack h6) h7
  obtain ⟨c8, g8, r8⟩ := visitReturn_run r7.inv h8
  have r9 := run_skip r5.inv (b := true) rfl h6 (r7.seq r8) h9
  have e9 := patch_env h9
  obtain ⟨r10, e10⟩ := emitConst_run r9.inv hl rfl
  rw [e7, e6, e5, e4] at g8
  exact ⟨_, by rw [e10, e9]; exact .errProp hk hf g2 g8, r2.seq (r4.seq (r5.seq (r9.seq r10.done)))⟩

theorem sp_field {e : Expr} {f : String} {x : M Unit} (hx : Sp x (.expr e)) :
    Sp (do x; emitConst .loadField f) (.link (.field e f)) := by
  intro s s' hi hs h
  obtain ⟨_, s1, h1, h⟩ := M.bind_inv h
  obtain ⟨c, g1, r1⟩ := hx _ _ hi hs h1
  obtain ⟨r2, e2⟩ := emitConst_run r1.inv h rfl
  exact ⟨_, by rw [e2]; exact .field g1, r1.seq r2⟩

theorem sp_superAccess {f : String} {cls : Option String} : Sp (visitSuperAccess f cls) (.link (.superAccess f cls)) := by
  intro s s' hi hs h
  unfold visitSuperAccess at h
  obtain ⟨c, s1, h1, h2⟩ := M.bind_inv h
  clear h
  obtain ⟨rfl, hk⟩ := getCtx_kind h1
  have key : ((∃ r, c.kind = .method r) ∨ c.kind = .constructor) ∧ (do
      visitIdent (cls.getD nameSuper)
      visitIdent nameSelf
      emitConst .loadMethod f : M Unit) s1 = .ok ((), s') := by
    cases hc : c.kind with
    | constructor => rw [hc] at h2; refine ⟨.inr rfl, ?_⟩; cases cls <;> exact h2
    | method r => rw [hc] at h2; refine ⟨.inl ⟨r, rfl⟩, ?_⟩; cases cls <;> exact h2
    | _ =>
      rw [hc] at h2
      obtain ⟨_, _, h3, -⟩ := M.bind_inv h2
      exact (M.fail_inv h3).elim
  clear h2
  obtain ⟨hm, h⟩ := key
  obtain ⟨_, s2, h2, h⟩ := M.bind_inv h
  obtain ⟨_, s3, h3, h⟩ := M.bind_inv h
  obtain ⟨i1, g2, r2⟩ := visitIdent_run hi h2
  obtain ⟨i2, g3, r3⟩ := visitIdent_run r2.inv h3
  obtain ⟨r4, e4⟩ := emitConst_run r3.inv h rfl
  exact ⟨_, by rw [e4]; exact .superAccess hk hm g2 g3, r2.seq (r3.seq r4.done)⟩

theorem sp_call {e : Expr} {es : List Expr} {x y : M Unit} (hx : Sp x (.expr e)) (hy : Sp y (.args es)) :
    Sp (visitCall es.length x y) (.link (.call e es)) := by
  intro s s' hi hs h
  unfold visitCall at h
  obtain ⟨_, s1, h1, h⟩ := M.bind_inv h
  obtain ⟨n, s1', h1', h⟩ := M.bind_inv h
  obtain ⟨_, s2, h2, h⟩ := M.bind_inv h
  obtain ⟨_, s3, h3, hl⟩ := M.bind_inv h
  clear h
  obtain ⟨rfl, rfl⟩ := getTemporaries_inv h1'
  obtain ⟨c1, g1, r1⟩ := hx _ _ hi hs h1
  obtain ⟨c2, g2, r2⟩ := hy _ _ r1.inv r1.stack' h2
  obtain ⟨r3, e3⟩ := setTemporaries_run r2.inv h3
  obtain ⟨r4, e4⟩ := emit1_run r3.inv hl rfl
  exact ⟨_, by rw [e4]; exact .call g1 g2 e3, r1.seq (r2.seq (r3.after r4.done))⟩

theorem sp_superCall {es : List Expr} {y : M Unit} (hy : Sp y (.args es)) :
    Sp (visitSuperCall es.length y) (.link (.superCall es)) := by
  intro s s' hi hs h
  unfold visitSuperCall at h
  obtain ⟨r, s1, h1, h2⟩ := M.bind_inv h
  clear h
  obtain ⟨rfl, hl, -⟩ := lookupLocal_inv h1
  cases r with
  | none =>
    obtain ⟨_, _, h3, -⟩ := M.bind_inv h2
    exact (M.fail_inv h3).elim
  | some v =>
    obtain ⟨_, s2, h3, h⟩ := M.bind_inv h2
    obtain ⟨n, s3, h4, h⟩ := M.bind_inv h
    obtain ⟨_, s4, h5, h⟩ := M.bind_inv h
    obtain ⟨_, s5, h6, h⟩ := M.bind_inv h
    obtain ⟨_, s6, h7, hz⟩ := M.bind_inv h
    clear h
    obtain ⟨rfl, rfl⟩ := getTemporaries_inv h4
    obtain ⟨r3, e3⟩ := emit1_run hi h3 rfl
    obtain ⟨c, g5, r5⟩ := hy _ _ r3.inv r3.stack' h5
    obtain ⟨r6, e6⟩ := setTemporaries_run r5.inv h6
    obtain ⟨i, g7, r7⟩ := visitIdent_run r6.inv h7
    obtain ⟨r8, e8⟩ := emit1_run r7.inv hz rfl
    rw [e3] at g5
    rw [e6, e3] at g7
    exact ⟨_, by rw [e8]; exact .superCall hl g5 g7, r3.seq (r5.seq (r6.after (r7.seq r8.done)))⟩

theorem takeCallContext_inv {s s' : CState} {cc : CallContext} (h : takeCallContext s = .ok (cc, s')) :
    ∃ sc, cc = sc.callContext ∧ topScope s = .ok (sc, s) ∧ setCallContext {} s = .ok ((), s') ∧
      s.env.callDepth = some cc.depth ∧ s.env.setCallDepth 0 = some s'.env := by
  unfold takeCallContext at h
  obtain ⟨sc, s1, h1, h2⟩ := M.bind_inv h
  clear h
  obtain ⟨_, s2, h3, h4⟩ := M.bind_inv h2
  obtain ⟨rfl, rfl⟩ := M.pure_inv h4
  have hs1 := (topScope_inv h1).1
  subst hs1
  exact ⟨sc, rfl, h1, h3, (topScope_depth h1).1, setCallContext_env h3⟩

theorem callContext_ok {s s' : CState} (hi : Inv s) (h : setCallContext {} s = .ok ((), s')) :
    Inv s' ∧ ∃ d rest, s'.stack = d :: rest := by
  obtain ⟨_, _, _, _, _, _, rfl, _, _, _, hi1⟩ := setCallContext_facts hi h (fun _ => rfl) (fun _ _ _ x hx => nomatch hx)
  exact ⟨hi1, _, _, rfl⟩

theorem sp_index {e i : Expr} {x y : M Unit} (hx : Sp x (.expr e)) (hy : Sp y (.expr i)) :
    Sp (visitIndex x y) (.link (.index e i)) := by
  intro s s' hi hs h
  unfold visitIndex at h
  obtain ⟨_, s1, h1, h⟩ := M.bind_inv h
  obtain ⟨cc, s2, h2, h⟩ := M.bind_inv h
  obtain ⟨n, s2', h2', h⟩ := M.bind_inv h
  obtain ⟨_, s3, h3, h⟩ := M.bind_inv h
  obtain ⟨_, s4, h4, h⟩ := M.bind_inv h
  obtain ⟨m, s4', h4', hz⟩ := M.bind_inv h
  clear h
  obtain ⟨rfl, rfl⟩ := getTemporaries_inv h2'
  obtain ⟨rfl, hm⟩ := getTemporaries_inv h4'
  obtain ⟨c1, g1, r1⟩ := hx _ _ hi hs h1
  obtain ⟨sc, rfl, ht, hset, hd, he⟩ := takeCallContext_inv h2
  cases m with
  | zero =>
    obtain ⟨_, _, h3, -⟩ := M.bind_inv hz
    exact (M.fail_inv h3).elim
  | succ m =>
    obtain ⟨_, s5, h5, h⟩ := M.bind_inv hz
    obtain ⟨_, s6, h6, hl⟩ := M.bind_inv h
    obtain ⟨hi2, hs2⟩ := callContext_ok r1.inv hset
    obtain ⟨r3, e3⟩ := setTemporaries_run hi2 h3
    obtain ⟨c4, g4, r4⟩ := hy _ _ r3.inv r3.stack' h4
    obtain ⟨r5, e5⟩ := setTemporaries_run r4.inv h5
    have e6 := setCallContext_env h6
    have r6 := run_aside r1.inv ht hset (fun _ => r3.after (r4.before r5)) h6
    obtain ⟨r7, e7⟩ := emit_run r6.inv hl rfl
    rw [e3] at g4
    have hm' : m = s4'.env.temps - 1 := by omega
    rw [e5, hm'] at e6
    exact ⟨_, by rw [e7]; exact .index g1 hd he g4 e6 rfl, r1.seq (r6.seq r7.done)⟩

/-! ## Lists of expressions -/

theorem sp_seqNil {t : Option Expr} {x : M Unit} (hx : Sp x (.els t)) : Sp (visitSeq [] x) (.seq [] t) := by
  intro s s' hi hs h
  rw [visitSeq] at h
  obtain ⟨c, g, r⟩ := hx _ _ hi hs h
  exact ⟨c, .seqNil g, r⟩

theorem sp_seqCons {e : Expr} {es : List Expr} {t : Option Expr} {x : M Unit} (he : Sp (visit e) (.expr e))
    (hes : Sp (visitSeq es x) (.seq es t)) : Sp (visitSeq (e :: es) x) (.seq (e :: es) t) := by
  intro s s' hi hs h
  rw [visitSeq] at h
  obtain ⟨_, s1, h1, h⟩ := M.bind_inv h
  obtain ⟨_, s2, h2, h⟩ := M.bind_inv h
  obtain ⟨c1, g1, r1⟩ := he _ _ hi hs h1
  obtain ⟨r2, e2⟩ := emit_run r1.inv h2 rfl
  obtain ⟨c3, g3, r3⟩ := hes _ _ r2.inv r2.stack' h
  rw [e2] at g3
  exact ⟨_, .seqCons g1 g3, r1.seq (r2.seq r3.done)⟩

theorem sp_els {t : Option Expr} (ht : ∀ e ∈ t, Sp (visit e) (.expr e)) : Sp (visitElse t) (.els t) := by
  intro s s' hi hs h
  cases t with
  | none =>
    rw [visitElse] at h
    obtain ⟨r, e⟩ := emit_run hi h rfl
    exact ⟨_, by rw [e]; exact .elsNone, r⟩
  | some e =>
    rw [visitElse] at h
    obtain ⟨c, g, r⟩ := ht e rfl _ _ hi hs h
    exact ⟨c, .elsSome g, r⟩

theorem sp_seq {t : Option Expr} : (es : List Expr) → (∀ e ∈ es, Sp (visit e) (.expr e)) → (∀ e ∈ t, Sp (visit e) (.expr e)) →
    Sp (visitSeq es (visitElse t)) (.seq es t)
  | [], _, ht => sp_seqNil (sp_els ht)
  | e :: es, he, ht => sp_seqCons (he e (by simp)) (sp_seq es (fun x hx => he x (by simp [hx])) ht)

theorem sp_items : (es : List Expr) → (∀ e ∈ es, Sp (visit e) (.expr e)) → Sp (visitItems es) (.items es)
  | [], _ => fun s s' hi ⟨d, rest, hs⟩ h => by
    rw [visitItems] at h
    obtain ⟨-, rfl⟩ := M.pure_inv h
    exact ⟨_, .itemsNil, .refl hi hs⟩
  | e :: es, he => fun s s' hi hs h => by
    rw [visitItems] at h
    obtain ⟨_, s1, h1, h⟩ := M.bind_inv h
    obtain ⟨c1, g1, r1⟩ := he e (by simp) _ _ hi hs h1
    obtain ⟨c2, g2, r2⟩ := sp_items es (fun x hx => he x (by simp [hx])) _ _ r1.inv r1.stack' h
    exact ⟨_, .itemsCons g1 g2, r1.seq r2⟩

theorem sp_args : (es : List Expr) → (∀ e ∈ es, Sp (visit e) (.expr e)) → Sp (visitArgs es) (.args es)
  | [], _ => fun s s' hi ⟨d, rest, hs⟩ h => by
    rw [visitArgs] at h
    obtain ⟨-, rfl⟩ := M.pure_inv h
    exact ⟨_, .argsNil, .refl hi hs⟩
  | e :: es, he => fun s s' hi hs h => by
    rw [visitArgs] at h
    obtain ⟨_, s5, h0, hl⟩ := M.bind_inv h
    clear h
    unfold visitArg at h0
    obtain ⟨cc, s1, h1, h⟩ := M.bind_inv h0
    obtain ⟨n, s1', h1', h⟩ := M.bind_inv h
    obtain ⟨_, s2, h2, h⟩ := M.bind_inv h
    obtain ⟨_, s3, h3, h4⟩ := M.bind_inv h
    clear h
    obtain ⟨rfl, rfl⟩ := getTemporaries_inv h1'
    obtain ⟨sc, rfl, ht, hset, hd, h0e⟩ := takeCallContext_inv h1
    obtain ⟨hi1, hs1⟩ := callContext_ok hi hset
    obtain ⟨r2, e2⟩ := setTemporaries_run hi1 h2
    obtain ⟨c3, g3, r3⟩ := he e (by simp) _ _ r2.inv r2.stack' h3
    have e4 := setCallContext_env h4
    have r4 := run_aside hi ht hset (fun _ => r2.after r3) h4
    obtain ⟨c5, g5, r5⟩ := sp_args es (fun x hx => he x (by simp [hx])) _ _ r4.inv r4.stack' hl
    rw [e2] at g3
    exact ⟨_, .argsCons hd h0e g3 e4 g5, r4.seq r5⟩

theorem sp_fields : (fs : List (String × Expr)) → (∀ p ∈ fs, Sp (visit p.2) (.expr p.2)) → Sp (visitFields fs) (.fields fs)
  | [], _ => fun s s' hi ⟨d, rest, hs⟩ h => by
    rw [visitFields] at h
    obtain ⟨-, rfl⟩ := M.pure_inv h
    exact ⟨_, .fieldsNil, .refl hi hs⟩
  | (f, e) :: fs, he => fun s s' hi hs h => by
    rw [visitFields] at h
    obtain ⟨_, s1, h1, h⟩ := M.bind_inv h
    obtain ⟨_, s2, h2, h⟩ := M.bind_inv h
    obtain ⟨_, s3, h3, h⟩ := M.bind_inv h
    obtain ⟨_, s4, h4, h⟩ := M.bind_inv h
    obtain ⟨r1, e1⟩ := emit1_run hi h1 rfl
    obtain ⟨c2, g2, r2⟩ := he (f, e) (by simp) _ _ r1.inv r1.stack' h2
    obtain ⟨r3, e3⟩ := emitConst_run r2.inv h3 rfl
    obtain ⟨r4, e4⟩ := emit_run r3.inv h4 rfl
    obtain ⟨c5, g5, r5⟩ := sp_fields fs (fun x hx => he x (by simp [hx])) _ _ r4.inv r4.stack' h
    rw [e1] at g2
    rw [e4, e3] at g5
    exact ⟨_, .fieldsCons g2 g5, r1.seq (r2.seq (r3.seq (r4.seq r5.done)))⟩

/-! ## Classes and exports -/

theorem visitClassFn_run {k : ClassKind} {slot : Nat} {name : String} {args : List FnArg} {ret : Option TypeAnn} {es : List Expr} {t : Option Expr}
    {x : M Unit} (hx : Sp x (.seq es t)) {s s' : CState} (hi : Inv s) (hs : ∃ d rest, s.stack = d :: rest)
    (h : visitClassFn slot k name args ret es t x s = .ok ((), s')) :
    ∃ fk c id, ∃ fn : Ctx, classFnKind k name args = some fk ∧ (∀ j, fk = .constructor j → ret = none) ∧ (args.map (·.name)).Nodup ∧
      Gen (s.env.pushFn (fnCompilerKind fk ret)) (.fnBody fk args es t) c (fn.erase :: s'.env) ∧ FnCode fn.erase c fn.finish ∧
      Run s s' [] (.seq (.instr (fnInstr fn.finish name id fn.erase.upvalues)) (storeMember fk slot name)) := by
  have key : ∃ fk, classFnKind k name args = some fk ∧ fk ≠ .function ∧ (do
      visitFnDecl fk name args ret es t x
      match fk with
      | .constructor _ | .method =>
        emitConst .storeMethod name
        emit1 .loadLocal slot
      | _ =>
        emitConst .storeField name
        emit .pop
        emit1 .loadLocal slot : M Unit) s = .ok ((), s') := by
    unfold visitClassFn at h
    unfold classFnKind
    simp only at h
    cases ha : args.head?.filter (fun a => a.name == nameSelf) with
    | some a =>
      rw [ha] at h
      simp only at h
      by_cases h1 : a.type_.isSome = true
      · rw [if_pos h1] at h
        obtain ⟨_, _, h3, -⟩ := M.bind_inv h
        exact (M.fail_inv h3).elim
      · rw [if_neg h1] at h
        simp only [h1]
        by_cases h2 : (name == nameNew) = true
        · rw [if_pos h2] at h
          exact ⟨_, by simp [h2], by simp, h⟩
        · rw [if_neg h2] at h
          exact ⟨_, by simp [h2], by simp, h⟩
    | none =>
      rw [ha] at h
      simp only at h
      by_cases h2 : (name == nameNew) = true
      · rw [if_pos h2] at h
        obtain ⟨_, _, h3, -⟩ := M.bind_inv h
        exact (M.fail_inv h3).elim
      · rw [if_neg h2] at h
        exact ⟨_, by simp [h2], by simp, h⟩
  obtain ⟨fk, hfk, hne, h'⟩ := key
  clear h
  obtain ⟨_, s5, h1, h2⟩ := M.bind_inv h'
  clear h'
  unfold visitFnDecl at h1
  obtain ⟨_, s0, h0, h3⟩ := M.bind_inv h1
  clear h1
  obtain ⟨rfl, hu⟩ := assertUniqueParams_inv h0
  obtain ⟨fn, s2, h4, h5⟩ := M.bind_inv h3
  obtain ⟨id, s3, h6, h7⟩ := M.bind_inv h5
  rw [if_neg hne] at h7
  obtain ⟨c, hret, hg, hc, r⟩ := fnValue_run hx hi hs h4 h6 h7
  have key : Run s5 s' [] (storeMember fk slot name) ∧ s'.env = s5.env := by
    unfold storeMember
    cases fk with
    | function => exact (hne rfl).elim
    | staticMethod =>
      obtain ⟨_, s6, h8, h9⟩ := M.bind_inv h2
      obtain ⟨_, s7, h10, h11⟩ := M.bind_inv h9
      obtain ⟨r1, e1⟩ := emitConst_run r.inv h8 rfl
      obtain ⟨r2, e2⟩ := emit_run r1.inv h10 rfl
      obtain ⟨r3, e3⟩ := emit1_run r2.inv h11 rfl
      exact ⟨r1.seq (r2.seq r3.done), by rw [e3, e2, e1]⟩
    | constructor j =>
      obtain ⟨_, s6, h8, h9⟩ := M.bind_inv h2
      obtain ⟨r1, e1⟩ := emitConst_run r.inv h8 rfl
      obtain ⟨r2, e2⟩ := emit1_run r1.inv h9 rfl
      exact ⟨r1.seq r2, by rw [e2, e1]⟩
    | method =>
      obtain ⟨_, s6, h8, h9⟩ := M.bind_inv h2
      obtain ⟨r1, e1⟩ := emitConst_run r.inv h8 rfl
      obtain ⟨r2, e2⟩ := emit1_run r1.inv h9 rfl
      exact ⟨r1.seq r2, by rw [e2, e1]⟩
  obtain ⟨r2, e2⟩ := key
  exact ⟨fk, c, id, fn, hfk, hret, hu, by rw [e2]; exact hg, hc, r.seq r2⟩

theorem visitClassOp_run {slot : Nat} {op : OverOp} {args : List FnArg} {ret : Option TypeAnn} {es : List Expr} {t : Option Expr}
    {x : M Unit} (hx : Sp x (.seq es t)) {s s' : CState} (hi : Inv s) (hs : ∃ d rest, s.stack = d :: rest)
    (h : visitClassOp slot op args ret es t x s = .ok ((), s')) :
    ∃ a c id, ∃ fn : Ctx, args.head?.filter (fun a => a.name == nameSelf) = some a ∧ a.type_ = none ∧ (args.map (·.name)).Nodup ∧
      Gen (s.env.pushFn (.method ret)) (.fnBody .method args es t) c (fn.erase :: s'.env) ∧ FnCode fn.erase c fn.finish ∧
      Run s s' [] (.seq (.instr (fnInstr fn.finish op.name id fn.erase.upvalues))
        (.seq (.sym .storeMethod op.name) (.num .loadLocal slot))) := by
  have key : ∃ a, args.head?.filter (fun a => a.name == nameSelf) = some a ∧ a.type_ = none ∧ (do
      visitOpDecl true op args ret es t x
      emitConst .storeMethod op.name
      emit1 .loadLocal slot : M Unit) s = .ok ((), s') := by
    unfold visitClassOp at h
    cases ha : args.head?.filter (fun a => a.name == nameSelf) with
    | some a =>
      rw [ha] at h
      simp only at h
      by_cases h1 : a.type_.isSome = true
      · rw [if_pos h1] at h
        obtain ⟨_, _, h3, -⟩ := M.bind_inv h
        exact (M.fail_inv h3).elim
      · rw [if_neg h1] at h
        exact ⟨a, rfl, by simpa using h1, h⟩
    | none =>
      rw [ha] at h
      obtain ⟨_, _, h3, -⟩ := M.bind_inv h
      exact (M.fail_inv h3).elim
  obtain ⟨a, ha, hat, h'⟩ := key
  clear h
  obtain ⟨_, s5, h1, h2⟩ := M.bind_inv h'
  clear h'
  unfold visitOpDecl at h1
  obtain ⟨_, s0, h0, h3⟩ := M.bind_inv h1
  clear h1
  obtain ⟨rfl, hu⟩ := assertUniqueParams_inv h0
  obtain ⟨fn, s2, h4, h5⟩ := M.bind_inv h3
  obtain ⟨id, s3, h6, h7⟩ := M.bind_inv h5
  obtain ⟨_, s4, h8, h9⟩ := M.bind_inv h7
  obtain ⟨-, rfl⟩ := M.pure_inv h9
  obtain ⟨c, hret, hg, hc, r⟩ := fnValue_run hx hi hs h4 h6 h8
  obtain ⟨_, s6, h10, h11⟩ := M.bind_inv h2
  obtain ⟨r1, e1⟩ := emitConst_run r.inv h10 rfl
  obtain ⟨r2, e2⟩ := emit1_run r1.inv h11 rfl
  exact ⟨a, c, id, fn, ha, hat, hu, by rw [e2, e1]; exact hg, hc, r.seq (r1.seq r2)⟩

theorem layout_assoc {D : Bytecode} {a b c : Code} {p q tb tc te : Nat} (h : Layout D p q tb tc te (.seq (.seq a b) c)) :
    Layout D p q tb tc te (.seq a (.seq b c)) := by
  obtain ⟨r, ⟨r', ha, hb⟩, hc⟩ := h
  exact ⟨r', ha, r, hb, hc⟩

/-- The visit of the body of a function. -/
def visitBody : Expr → M Unit
  | .block es t => visitSeq es (visitElse t)
  | e => visit e

theorem sp_body {body : Expr} (h1 : ∀ es t, body = .block es t → (∀ e ∈ es, Sp (visit e) (.expr e)) ∧ ∀ e ∈ t, Sp (visit e) (.expr e))
    (h2 : Sp (visit body) (.expr body)) : Sp (visitBody body) (.seq (bodyExprs body) (bodyTrailing body)) := by
  have other : Sp (visit body) (.seq [] (some body)) := fun s s' hi hs h => by
    obtain ⟨c, g, r⟩ := h2 s s' hi hs h
    exact ⟨c, .seqNil (.elsSome g), r⟩
  cases body with
  | block es t => exact sp_seq es (h1 es t rfl).1 (h1 es t rfl).2
  | _ => exact other

theorem sp_clsFn {k : ClassKind} {slot : Nat} {name : String} {args : List FnArg} {ret : Option TypeAnn} {body : Expr} {rest : List Expr}
    (hb : Sp (visitBody body) (.seq (bodyExprs body) (bodyTrailing body)))
    (hr : Sp (visitClassItems k rest slot) (.cls k rest slot)) :
    Sp (visitClassItems k (.fnDecl name args ret body :: rest) slot) (.cls k (.fnDecl name args ret body :: rest) slot) := by
  intro s s' hi hs h
  have key : (do
      visitClassFn slot k name args ret (bodyExprs body) (bodyTrailing body) (visitBody body)
      visitClassItems k rest slot : M Unit) s = .ok ((), s') := by
    cases body <;> (simp only [visitClassItems] at h; exact h)
  obtain ⟨_, s1, h1, h2⟩ := M.bind_inv key
  obtain ⟨fk, c, id, fn, hfk, hret, hu, hg, hc, r1⟩ := visitClassFn_run hb hi hs h1
  obtain ⟨c2, g2, r2⟩ := hr _ _ r1.inv r1.stack' h2
  exact ⟨_, .clsFn hfk hret hu hg hc g2, (r1.seq r2.done).conv fun D p q tb tc te h => layout_assoc h⟩

theorem sp_clsOp {k : ClassKind} {slot : Nat} {op : OverOp} {args : List FnArg} {ret : Option TypeAnn} {body : Expr} {rest : List Expr}
    (hb : Sp (visitBody body) (.seq (bodyExprs body) (bodyTrailing body)))
    (hr : Sp (visitClassItems k rest slot) (.cls k rest slot)) :
    Sp (visitClassItems k (.opDecl op args ret body :: rest) slot) (.cls k (.opDecl op args ret body :: rest) slot) := by
  intro s s' hi hs h
  have key : (do
      visitClassOp slot op args ret (bodyExprs body) (bodyTrailing body) (visitBody body)
      visitClassItems k rest slot : M Unit) s = .ok ((), s') := by
    cases body <;> (simp only [visitClassItems] at h; exact h)
  obtain ⟨_, s1, h1, h2⟩ := M.bind_inv key
  obtain ⟨a, c, id, fn, ha, hat, hu, hg, hc, r1⟩ := visitClassOp_run hb hi hs h1
  obtain ⟨c2, g2, r2⟩ := hr _ _ r1.inv r1.stack' h2
  refine ⟨_, .clsOp (id := id) ha hat hu hg hc g2, (r1.seq r2.done).conv fun D p q tb tc te h => ?_⟩
  obtain ⟨r, h1, h2⟩ := layout_assoc h
  exact ⟨r, h1, layout_assoc h2⟩

theorem sp_cls {k : ClassKind} {slot : Nat} : (items : List Expr) →
    (∀ e ∈ items, ∀ body, (∃ n a r, e = .fnDecl n a r body) ∨ (∃ o a r, e = .opDecl o a r body) →
      Sp (visitBody body) (.seq (bodyExprs body) (bodyTrailing body))) →
    Sp (visitClassItems k items slot) (.cls k items slot)
  | [], _ => fun s s' hi ⟨d, rest, hs⟩ h => by
    rw [visitClassItems] at h
    obtain ⟨-, rfl⟩ := M.pure_inv h
    exact ⟨_, .clsNil, .refl hi hs⟩
  | e :: rest, hb => by
    have ih := sp_cls (k := k) (slot := slot) rest fun x hx => hb x (by simp [hx])
    cases e with
    | fnDecl n a r body => exact sp_clsFn (hb _ (by simp) body (.inl ⟨n, a, r, rfl⟩)) ih
    | opDecl o a r body => exact sp_clsOp (hb _ (by simp) body (.inr ⟨o, a, r, rfl⟩)) ih
    | _ =>
      intro s s' hi hs h
      simp only [visitClassItems] at h
      exact (M.fail_inv h).elim

theorem sp_class {name : String} {base : Option Expr} {items : List Expr} {x : M Unit} {y : Nat → M Unit} (hx : Sp x (.base base))
    (hy : ∀ slot, Sp (y slot) (.cls (if base.isSome then .derived else .base) items slot)) :
    Sp (visitClass name x y) (.expr (.classDecl name base items)) := by
  intro s s' hi hs h
  unfold visitClass at h
  obtain ⟨_, s1, h1, h⟩ := M.bind_inv h
  obtain ⟨_, s2, h2, h⟩ := M.bind_inv h
  obtain ⟨slot, s3, h3, h⟩ := M.bind_inv h
  obtain ⟨_, s4, h4, h⟩ := M.bind_inv h
  obtain ⟨r, s5, h5, h'⟩ := M.bind_inv h
  clear h
  obtain ⟨hi1, hs1⟩ := pushScope_ok hi h1
  have e1 := pushScope_env h1
  obtain ⟨c2, g2, r2⟩ := hx _ _ hi1 hs1 h2
  obtain ⟨r3, e3⟩ := addLocal_run r2.inv h3
  obtain ⟨r4, e4⟩ := emit1_run r3.inv h4 rfl
  obtain ⟨rfl, hl, -⟩ := lookupLocal_inv h5
  rw [e4] at hl
  have key : ∃ v s6, r = some v ∧ v.state ≠ .class true ∧ Run s5 s6 [] .nop ∧
      s6.env = (if v.state = .class false then s3.env.setState name (.class true) else s3.env) ∧ (do
        emitE fun a => a.inheritClass name
        emit1 .storeLocal v.slot
        y v.slot
        let sc ← topScope
        closeUpvalues sc.variables
        let _ ← popScope
        pure () : M Unit) s6 = .ok ((), s') := by
    cases r with
    | none =>
      obtain ⟨_, _, h3, -⟩ := M.bind_inv h'
      exact (M.fail_inv h3).elim
    | some v =>
      simp only at h'
      obtain ⟨d, rest, hst⟩ := r4.stack'
      cases hst' : v.state with
      | «class» b =>
        simp only [hst'] at h'
        cases b with
        | true =>
          obtain ⟨_, _, h3, -⟩ := M.bind_inv h'
          exact (M.fail_inv h3).elim
        | false =>
          obtain ⟨_, s6, h6, h7⟩ := M.bind_inv h'
          obtain ⟨r6, e6⟩ := setLocalState_run r4.inv h6
          exact ⟨v, s6, rfl, by simp [hst'], r6, by rw [e6, e4]; simp [hst'], h7⟩
      | _ => simp only [hst'] at h'; exact ⟨v, s5, rfl, by simp [hst'], .refl r4.inv hst, by rw [e4]; simp [hst'], h'⟩
  clear h'
  obtain ⟨v, s6, rfl, hst, r6, e6, h⟩ := key
  obtain ⟨_, s7, h7, h⟩ := M.bind_inv h
  obtain ⟨_, s8, h8, h⟩ := M.bind_inv h
  obtain ⟨_, s9, h9, h⟩ := M.bind_inv h
  obtain ⟨sc, s10, h10, h⟩ := M.bind_inv h
  obtain ⟨_, s11, h11, h⟩ := M.bind_inv h
  obtain ⟨sc', s12, h12, h'⟩ := M.bind_inv h
  clear h
  obtain ⟨-, rfl⟩ := M.pure_inv h'
  obtain ⟨r7, e7⟩ := inheritClass_run r6.inv h7
  obtain ⟨r8, e8⟩ := emit1_run r7.inv h8 rfl
  obtain ⟨c9, g9, r9⟩ := hy _ _ _ r8.inv r8.stack' h9
  have hv := topScope_vars h10
  have hs10 := (topScope_inv h10).1
  subst hs10
  obtain ⟨r11, e11⟩ := closeUpvalues_run r9.inv r9.stack' h11
  have e12 := popScope_env h12
  rw [e11] at e12
  have hvars : sc.variables = sc'.variables := by
    rw [← hv]
    obtain ⟨c0, rest0, tl, hs6, ht, rfl⟩ := popScope_inv h12
    rw [← e11, env_cons hs6]
    simp [Env.topVars, Ctx.erase, ScopeStack.erase, ScopeStack.top?, ht, ScopeContext.erase]
  rw [e8, e7] at g9
  rw [hvars] at r11
  exact ⟨_, .classDecl e1 g2 e3 hl hst e6 g9 e12,
    run_block hi h1 (r2.seq (r3.after (r4.seq (r6.after (r7.seq (r8.seq (r9.seq r11.done))))))) h12⟩

theorem sp_export {e : Expr} {x : M Unit} (hx : Sp x (.expr e)) : Sp (visitExport e x) (.expr (.exportDecl e)) := by
  intro s s' hi hs h
  unfold visitExport at h
  obtain ⟨c, s1, h1, h2⟩ := M.bind_inv h
  clear h
  obtain ⟨rfl, hk⟩ := getCtx_kind h1
  have hck : c.kind = .module := by
    cases hc : c.kind with
    | module => rfl
    | _ =>
      rw [hc] at h2
      obtain ⟨_, _, h3, -⟩ := M.bind_inv h2
      exact (M.fail_inv h3).elim
  rw [hck] at h2 hk
  simp only at h2
  obtain ⟨sc, s2, h3, h4⟩ := M.bind_inv h2
  clear h2
  have hd := (topScope_depth h3).2
  have hs2 := (topScope_inv h3).1
  subst hs2
  split at h4
  · obtain ⟨_, _, h3, -⟩ := M.bind_inv h4
    exact (M.fail_inv h3).elim
  · rename_i hle
    obtain ⟨r, s3, h5, h6⟩ := M.bind_inv h4
    clear h4
    obtain ⟨rfl, hl, -⟩ := lookupLocal_inv h5
    cases r with
    | none =>
      obtain ⟨_, _, h3, -⟩ := M.bind_inv h6
      exact (M.fail_inv h3).elim
    | some v =>
      obtain ⟨_, s4, h7, h⟩ := M.bind_inv h6
      obtain ⟨_, s5, h8, h9⟩ := M.bind_inv h
      obtain ⟨r7, e7⟩ := emit1_run hi h7 rfl
      obtain ⟨c8, g8, r8⟩ := hx _ _ r7.inv r7.stack' h8
      cases hn : exportName e with
      | none => rw [hn] at h9; exact (M.fail_inv h9).elim
      | some n =>
        rw [hn] at h9
        obtain ⟨r9, e9⟩ := emitConst_run r8.inv h9 rfl
        rw [e7] at g8
        exact ⟨_, by rw [e9]; exact .exportDecl hk hd (by omega) hl g8 hn, r7.seq (r8.seq r9.done)⟩

/-! ## The main theorem -/

theorem sp_object {fs : List (String × Expr)} (h : Sp (visitFields fs) (.fields fs)) :
    Sp (do emit .createObject; visitFields fs) (.expr (.object fs)) := by
  intro s s' hi hs h'
  obtain ⟨_, s1, h1, h2⟩ := M.bind_inv h'
  obtain ⟨r1, e1⟩ := emit_run hi h1 rfl
  obtain ⟨c, g, r⟩ := h _ _ r1.inv r1.stack' h2
  rw [e1] at g
  exact ⟨_, .object g, r1.seq r⟩

theorem sp_list {es : List Expr} (h : Sp (visitItems es) (.items es)) :
    Sp (do visitItems es; emit1 .createArray es.length) (.expr (.list es)) := by
  intro s s' hi hs h'
  obtain ⟨_, s1, h1, h2⟩ := M.bind_inv h'
  obtain ⟨c, g, r⟩ := h _ _ hi hs h1
  obtain ⟨r2, e2⟩ := emit1_run r.inv h2 rfl
  exact ⟨_, by rw [e2]; exact .list g, r.seq r2⟩

theorem sp_blockExpr {es : List Expr} {t : Option Expr} {x : M Unit} (h : Sp x (.block .block es t)) : Sp x (.expr (.block es t)) := by
  intro s s' hi hs h'
  obtain ⟨c, g, r⟩ := h _ _ hi hs h'
  exact ⟨_, .blockExpr g, r⟩

theorem sp_baseSome {b : Expr} {x : M Unit} (h : Sp x (.expr b)) : Sp x (.base (some b)) := by
  intro s s' hi hs h'
  obtain ⟨c, g, r⟩ := h _ _ hi hs h'
  exact ⟨_, .baseSome g, r⟩

theorem sp_baseNone : Sp (visitIdent nameAny) (.base none) := by
  intro s s' hi hs h'
  obtain ⟨c, g, r⟩ := visitIdent_run hi h'
  exact ⟨_, .baseNone g, r⟩

theorem sp_fail {e : CErr} {nd : Node} : Sp (M.fail e) nd := fun _ _ _ _ h => (M.fail_inv h).elim

theorem visit_unary {op} (a : Expr) :
    visit (.unary op a) = (do visit a; emit (match op with | .negate => .negate | .not => .not)) := by
  cases op <;> simp only [visit]

theorem visit_anonFn {args ret} (b : Expr) :
    visit (.anonFn args ret b) = visitAnonFn args ret (bodyExprs b) (bodyTrailing b) (visitBody b) := by
  cases b <;> simp only [visit, bodyExprs, bodyTrailing, visitBody]

theorem visit_fnDecl {name args ret} (b : Expr) :
    visit (.fnDecl name args ret b) = visitFnDecl .function name args ret (bodyExprs b) (bodyTrailing b) (visitBody b) := by
  cases b <;> simp only [visit, bodyExprs, bodyTrailing, visitBody]

theorem visit_opDecl {op args ret} (b : Expr) :
    visit (.opDecl op args ret b) = visitOpDecl false op args ret (bodyExprs b) (bodyTrailing b) (visitBody b) := by
  cases b <;> simp only [visit, bodyExprs, bodyTrailing, visitBody]

set_option maxHeartbeats 2000000 in
/-- Every subexpression smaller than the given bound compiles according to the judgement. -/
theorem visit_sp_aux (n : Nat) : ∀ e : Expr, sizeOf e < n → Sp (visit e) (.expr e) := by
  induction n with
  | zero => intro e h; omega
  | succ n ih =>
    have list : ∀ (es : List Expr), sizeOf es < n → ∀ e ∈ es, Sp (visit e) (.expr e) := fun es h e he =>
      ih e (Nat.lt_trans (List.sizeOf_lt_of_mem he) h)
    have opt : ∀ (t : Option Expr), sizeOf t < n → ∀ e ∈ t, Sp (visit e) (.expr e) := fun t h e he => by
      cases he
      exact ih e (by simp at h; omega)
    have body : ∀ b : Expr, sizeOf b < n → Sp (visitBody b) (.seq (bodyExprs b) (bodyTrailing b)) := fun b h =>
      sp_body (fun es t hb => by subst hb; simp at h; exact ⟨list es (by omega), opt t (by omega)⟩) (ih b h)
    intro e he
    cases e with
    | ident x => rw [visit]; exact sp_ident
    | unit => rw [visit]; exact sp_emit rfl fun g => .unit
    | null => rw [visit]; exact sp_emit rfl fun g => .null
    | bool b => rw [visit]; exact sp_emit (by cases b <;> rfl) fun g => .bool
    | int i => rw [visit]; exact sp_int
    | float f => rw [visit]; exact sp_float
    | str s => rw [visit]; exact sp_str
    | anonFn args ret b =>
      simp at he
      have := body b (by omega)
      rw [visit_anonFn]; exact sp_anonFn this
    | object fs =>
      simp at he
      rw [visit]
      refine sp_object (sp_fields fs fun p hp => ih _ ?_)
      have := List.sizeOf_lt_of_mem hp
      cases p
      simp at this ⊢
      omega
    | list es =>
      simp at he
      rw [visit]
      exact sp_list (sp_items es (list es (by omega)))
    | assign op lhs rhs =>
      simp at he
      cases lhs with
      | ident x => rw [visit]; exact sp_assignIdent (ih _ (by omega))
      | field a f => simp at he; rw [visit]; exact sp_assignField (ih _ (by omega)) (ih _ (by omega))
      | index a i => simp at he; rw [visit]; exact sp_assignIndex (ih _ (by omega)) (ih _ (by omega)) (ih _ (by omega))
      | _ => rw [visit] <;> first | exact sp_fail | simp
    | unary op a => simp at he; rw [visit_unary]; exact sp_unary (ih _ (by omega))
    | binary op a b => simp at he; rw [visit]; exact sp_binary (ih _ (by omega)) (ih _ (by omega))
    | is a t => simp at he; rw [visit]; exact sp_is (ih _ (by omega))
    | varDecl k m a t => simp at he; rw [visit]; exact sp_varDecl (ih _ (by omega))
    | fnDecl name args ret b =>
      simp at he
      have := body b (by omega)
      rw [visit_fnDecl]; exact sp_fnDecl this
    | opDecl op args ret b =>
      simp at he
      have := body b (by omega)
      rw [visit_opDecl]; exact sp_opDecl this
    | classDecl name base items =>
      simp at he
      have hcls : ∀ k slot, Sp (visitClassItems k items slot) (.cls k items slot) := fun k slot =>
        sp_cls items fun e hm b hb => body b (by
          have := List.sizeOf_lt_of_mem hm
          rcases hb with ⟨_, _, _, rfl⟩ | ⟨_, _, _, rfl⟩ <;> simp at this <;> omega)
      cases base with
      | none => rw [visit]; exact sp_class sp_baseNone (hcls _)
      | some b => simp at he; rw [visit]; exact sp_class (sp_baseSome (ih b (by omega))) (hcls _)
    | importDecl m items path => rw [visit]; exact sp_import
    | exportDecl a => simp at he; rw [visit]; exact sp_export (ih _ (by omega))
    | ifExpr a b c => simp at he; rw [visit]; exact sp_if (ih _ (by omega)) (ih _ (by omega)) (sp_els (opt c (by omega)))
    | loop b =>
      simp at he
      cases b with
      | block es t => simp at he; rw [visit]; exact sp_loop (sp_block (sp_seq es (list es (by omega)) (opt t (by omega))))
      | _ => rw [visit] <;> first | exact sp_fail | simp
    | whileLoop a b =>
      simp at he
      cases b with
      | block es t =>
        simp at he
        rw [visit]
        exact sp_while (ih _ (by omega)) (sp_block (sp_seq es (list es (by omega)) (opt t (by omega))))
      | _ => rw [visit] <;> first | exact sp_fail | simp
    | forLoop x src b =>
      simp at he
      by_cases hr : ∃ op a c, src = .binary op a c ∧ (op = .rangeInclusive ∨ op = .rangeExclusive)
      · obtain ⟨op, a, c, rfl, hop⟩ := hr
        simp at he
        rcases hop with rfl | rfl
        · rw [visit]; exact sp_range (.inl ⟨rfl, rfl⟩) (ih _ (by omega)) (ih _ (by omega)) (ih _ (by omega))
        · rw [visit]; exact sp_range (.inr ⟨rfl, rfl⟩) (ih _ (by omega)) (ih _ (by omega)) (ih _ (by omega))
      · have hns : ∀ a b, src ≠ .binary .rangeInclusive a b ∧ src ≠ .binary .rangeExclusive a b := fun a c =>
          ⟨fun h => hr ⟨_, a, c, h, .inl rfl⟩, fun h => hr ⟨_, a, c, h, .inr rfl⟩⟩
        rw [visit]
        · exact sp_for hns (ih _ (by omega)) (ih _ (by omega))
        · exact fun a c h => (hns a c).1 h
        · exact fun a c h => (hns a c).2 h
    | break_ => rw [visit]; exact sp_break
    | continue_ => rw [visit]; exact sp_continue
    | block es t => simp at he; rw [visit]; exact sp_blockExpr (sp_block (sp_seq es (list es (by omega)) (opt t (by omega))))
    | return_ r =>
      simp at he
      cases r with
      | none => rw [visit]; exact sp_returnNone
      | some a => simp at he; rw [visit]; exact sp_returnSome (ih _ (by omega))
    | nullProp a => simp at he; rw [visit]; exact sp_chain rfl (sp_nullProp (ih _ (by omega)))
    | errProp a => simp at he; rw [visit]; exact sp_chain rfl (sp_errProp (ih _ (by omega))).link
    | field a f => simp at he; rw [visit]; exact sp_chain rfl (sp_field (ih _ (by omega))).link
    | superAccess f c => rw [visit]; exact sp_chain rfl sp_superAccess.link
    | call a es => simp at he; rw [visit]; exact sp_chain rfl (sp_call (ih _ (by omega)) (sp_args es (list es (by omega)))).link
    | superCall es => simp at he; rw [visit]; exact sp_chain rfl (sp_superCall (sp_args es (list es (by omega)))).link
    | index a i => simp at he; rw [visit]; exact sp_chain rfl (sp_index (ih _ (by omega)) (ih _ (by omega))).link

/-- The compiler follows the judgement: whatever it emits for an expression is the structured code of that
expression, laid out as bytecode. -/
theorem visit_sp (e : Expr) : Sp (visit e) (.expr e) := visit_sp_aux (sizeOf e + 1) e (Nat.lt_succ_self _)

end Dice
