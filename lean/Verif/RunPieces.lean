import Verif.RunScope

/-!
# Runs of the pieces shared by the visitors
-/

namespace Dice

theorem Run.stack {s s' L c} (h : Run s s' L c) : ∃ d rest, s.stack = d :: rest := by
  obtain ⟨E, X, hm, -⟩ := h
  obtain ⟨⟨c, rest, c', rest', hs, hs', he, -⟩, -, -⟩ := hm
  exact ⟨c, rest, hs⟩

/-- Names. -/
theorem visitIdent_run {s s' : CState} (hi : Inv s) {x : String} (h : visitIdent x s = .ok ((), s')) :
    ∃ i, IdentGen s.env x i s'.env ∧ Run s s' [] (.instr i) := by
  unfold visitIdent at h
  obtain ⟨r, s1, h1, h2⟩ := M.bind_inv h
  clear h
  obtain ⟨rfl, hl, c, rest, hs⟩ := lookupLocal_inv h1
  cases r with
  | some v =>
    simp only at h2
    split at h2
    · rename_i hin
      obtain ⟨hr, he⟩ := emit1_run hi h2 rfl
      exact ⟨_, by rw [he]; exact .local hl hin, hr⟩
    · exact (M.fail_inv h2).elim
  | none =>
    simp only at h2
    obtain ⟨r, s2, h3, h4⟩ := M.bind_inv h2
    cases r with
    | some i =>
      obtain ⟨hr, he⟩ := resolve_some hi h3
      obtain ⟨hr2, he2⟩ := emit1_run hr.inv h4 rfl
      exact ⟨_, he2 ▸ .captured hl he, hr.after hr2⟩
    | none =>
      obtain ⟨rfl, hn⟩ := resolve_none h3
      obtain ⟨hr2, he2⟩ := emitConst_run hi h4 rfl
      exact ⟨_, by rw [he2]; exact .global hl hn, hr2⟩

theorem visitLocalType_run {s s' : CState} (hi : Inv s) (hs : ∃ d rest, s.stack = d :: rest) {slot : Nat} {t : Option TypeAnn}
    (h : visitLocalType slot t s = .ok ((), s')) :
    ∃ c, TypeGen s.env slot t c s'.env ∧ Run s s' [] c := by
  cases t with
  | none =>
    obtain ⟨-, rfl⟩ := M.pure_inv h
    obtain ⟨d, rest, hs⟩ := hs
    exact ⟨_, .none, .refl hi hs⟩
  | some t =>
    unfold visitLocalType at h
    obtain ⟨_, s1, h1, h2⟩ := M.bind_inv h
    obtain ⟨i, hg, hr⟩ := visitIdent_run hi h1
    have key : Run s1 s' [] (.num (localCheck t.isNullable) slot) ∧ s'.env = s1.env := by
      unfold localCheck
      cases hn : t.isNullable
      · rw [hn] at h2
        simp only [Bool.false_eq_true, if_false] at h2
        exact emit1_run hr.inv h2 rfl
      · rw [hn] at h2
        simp only [if_true] at h2
        exact emit1_run hr.inv h2 rfl
    obtain ⟨hr2, he2⟩ := key
    exact ⟨_, he2 ▸ .some hg, hr.seq hr2⟩

theorem closeUpvalues_moves : (vars : List ScopeVar) → {s s' : CState} → Inv s → (∃ d rest, s.stack = d :: rest) →
    closeUpvalues vars s = .ok ((), s') → Moves s s' none [] [] [] (closeCode vars).place ∧ s'.env = s.env
  | [], s, s', hi, ⟨d, rest, hs⟩, h => by
    obtain ⟨-, rfl⟩ := M.pure_inv h
    exact ⟨⟨⟨d, rest, d, rest, hs, hs, Em.nop rfl rfl, .refl _⟩, Nat.le_refl _, hi⟩, rfl⟩
  | v :: vs, s, s', hi, hs, h => by
    unfold closeUpvalues at h
    obtain ⟨_, s1, h1, h2⟩ := M.bind_inv h
    obtain ⟨hr, he⟩ := closeUpvalues_moves vs hi hs h1
    unfold closeCode
    cases hc : v.isCaptured
    · rw [hc] at h2
      obtain ⟨-, rfl⟩ := M.pure_inv h2
      refine ⟨hr.mono fun D p q tb tc te h => ⟨q, h, rfl⟩, he⟩
    · rw [hc] at h2
      obtain ⟨hr2, he2⟩ := emit1_moves hr.inv h2 rfl
      exact ⟨(hr.seq hr2).mono fun D p q tb tc te h => h, he2.trans he⟩

theorem closeUpvalues_run {vars : List ScopeVar} {s s' : CState} (hi : Inv s) (hs : ∃ d rest, s.stack = d :: rest)
    (h : closeUpvalues vars s = .ok ((), s')) : Run s s' [] (closeCode vars) ∧ s'.env = s.env :=
  (closeUpvalues_moves vars hi hs h).imp Moves.plain id

theorem visitReturn_run {s s' : CState} (hi : Inv s) (h : visitReturn s = .ok ((), s')) :
    ∃ c, ReturnGen s.env c s'.env ∧ Run s s' [] c := by
  unfold visitReturn at h
  obtain ⟨c, s1, h1, h2⟩ := M.bind_inv h
  clear h
  obtain ⟨rfl, hk⟩ := getCtx_kind h1
  have plain : c.kind.returnType = none → emit .return_ s1 = .ok ((), s') →
      ∃ c, ReturnGen s1.env c s'.env ∧ Run s1 s' [] c := fun ht h => by
    obtain ⟨hr, he⟩ := emit_run hi h rfl
    exact ⟨_, by rw [he]; exact .plain hk ht, hr⟩
  have typed : ∀ t : TypeAnn, c.kind.returnType = some t →
      (do visitIdent t.name
          if t.isNullable then emit .assertTypeOrNullAndReturn else emit .assertTypeAndReturn : M Unit) s1 = .ok ((), s') →
      ∃ c, ReturnGen s1.env c s'.env ∧ Run s1 s' [] c := fun t ht h => by
    obtain ⟨_, s2, h3, h4⟩ := M.bind_inv h
    obtain ⟨i, hg, hr⟩ := visitIdent_run hi h3
    have key : Run s2 s' [] (.op (returnCheck t.isNullable)) ∧ s'.env = s2.env := by
      unfold returnCheck
      cases hn : t.isNullable
      · rw [hn] at h4
        simp only [Bool.false_eq_true, if_false] at h4
        exact emit_run hr.inv h4 rfl
      · rw [hn] at h4
        simp only [if_true] at h4
        exact emit_run hr.inv h4 rfl
    obtain ⟨hr2, he2⟩ := key
    exact ⟨_, he2 ▸ .typed hk ht hg, hr.seq hr2⟩
  cases hck : c.kind with
  | script => rw [hck] at h2 plain; exact plain rfl h2
  | module => rw [hck] at h2 plain; exact plain rfl h2
  | constructor => rw [hck] at h2 plain; exact plain rfl h2
  | function r =>
    rw [hck] at h2 plain typed
    cases r with
    | none => exact plain rfl h2
    | some t => exact typed t rfl h2
  | method r =>
    rw [hck] at h2 plain typed
    cases r with
    | none => exact plain rfl h2
    | some t => exact typed t rfl h2

theorem visitParams_run : (args : List FnArg) → {s s' : CState} → Inv s → (∃ d rest, s.stack = d :: rest) →
    visitParams args s = .ok ((), s') → ∃ c, ParamsGen s.env args c s'.env ∧ Run s s' [] c
  | [], s, s', hi, ⟨d, rest, hs⟩, h => by
    obtain ⟨-, rfl⟩ := M.pure_inv h
    exact ⟨_, .nil, .refl hi hs⟩
  | a :: as, s, s', hi, hs, h => by
    unfold visitParams at h
    obtain ⟨slot, s1, h1, h2⟩ := M.bind_inv h
    obtain ⟨_, s2, h3, h4⟩ := M.bind_inv h2
    obtain ⟨hr1, he1⟩ := addLocal_run hi h1
    obtain ⟨c1, hg2, hr2⟩ := visitLocalType_run hr1.inv hr1.stack' h3
    obtain ⟨c2, hg3, hr3⟩ := visitParams_run as hr2.inv hr2.stack' h4
    exact ⟨_, .cons he1 hg2 hg3, hr1.after (hr2.seq hr3)⟩

theorem visitArgDecls_run {s s' : CState} (hi : Inv s) (hs : ∃ d rest, s.stack = d :: rest) {k : FnKind} {args : List FnArg}
    (h : visitArgDecls k args s = .ok ((), s')) : ∃ c, ArgsGen s.env k args c s'.env ∧ Run s s' [] c := by
  have recv : ¬ (k = .function ∨ k = .staticMethod) → visitParams args s = .ok ((), s') →
      ∃ c, ArgsGen s.env k args c s'.env ∧ Run s s' [] c := fun hk h => by
    obtain ⟨c, hg, hr⟩ := visitParams_run args hi hs h
    exact ⟨c, .receiver hk hg, hr⟩
  have norecv : (k = .function ∨ k = .staticMethod) →
      (do let _ ← addLocal "" (.local false true); visitParams args : M Unit) s = .ok ((), s') →
      ∃ c, ArgsGen s.env k args c s'.env ∧ Run s s' [] c := fun hk h => by
    obtain ⟨slot, s1, h1, h2⟩ := M.bind_inv h
    obtain ⟨hr1, he1⟩ := addLocal_run hi h1
    obtain ⟨c, hg, hr⟩ := visitParams_run args hr1.inv hr1.stack' h2
    exact ⟨c, .noReceiver hk he1 hg, hr1.after hr⟩
  unfold visitArgDecls at h
  cases k with
  | function => exact norecv (.inl rfl) h
  | staticMethod => exact norecv (.inr rfl) h
  | method => exact recv (by simp) h
  | constructor j => exact recv (by simp) h

theorem scanExpr_run : (e : Expr) → {s s' : CState} → Inv s → (∃ d rest, s.stack = d :: rest) → scanExpr e s = .ok ((), s') →
    scanDecl e s.env = some s'.env ∧ Run s s' [] .nop
  | .fnDecl name _ _ _, s, s', hi, hs, h => by
    unfold scanExpr at h
    obtain ⟨slot, s1, h1, h2⟩ := M.bind_inv h
    obtain ⟨-, rfl⟩ := M.pure_inv h2
    obtain ⟨hr1, he1⟩ := addLocal_run hi h1
    exact ⟨by simp [scanDecl, he1], hr1⟩
  | .classDecl name _ _, s, s', hi, hs, h => by
    unfold scanExpr at h
    obtain ⟨slot, s1, h1, h2⟩ := M.bind_inv h
    obtain ⟨-, rfl⟩ := M.pure_inv h2
    obtain ⟨hr1, he1⟩ := addLocal_run hi h1
    exact ⟨by simp [scanDecl, he1], hr1⟩
  | .exportDecl e, s, s', hi, hs, h => by
    unfold scanExpr at h
    exact scanExpr_run e hi hs h
  | .ident _, s, s', hi, ⟨d, rest, hs⟩, h | .unit, s, s', hi, ⟨d, rest, hs⟩, h | .null, s, s', hi, ⟨d, rest, hs⟩, h
  | .bool _, s, s', hi, ⟨d, rest, hs⟩, h | .int _, s, s', hi, ⟨d, rest, hs⟩, h | .float _, s, s', hi, ⟨d, rest, hs⟩, h
  | .str _, s, s', hi, ⟨d, rest, hs⟩, h | .anonFn _ _ _, s, s', hi, ⟨d, rest, hs⟩, h | .object _, s, s', hi, ⟨d, rest, hs⟩, h
  | .list _, s, s', hi, ⟨d, rest, hs⟩, h | .assign _ _ _, s, s', hi, ⟨d, rest, hs⟩, h | .unary _ _, s, s', hi, ⟨d, rest, hs⟩, h
  | .binary _ _ _, s, s', hi, ⟨d, rest, hs⟩, h | .is _ _, s, s', hi, ⟨d, rest, hs⟩, h
  | .varDecl _ _ _ _, s, s', hi, ⟨d, rest, hs⟩, h | .opDecl _ _ _ _, s, s', hi, ⟨d, rest, hs⟩, h
  | .importDecl _ _ _, s, s', hi, ⟨d, rest, hs⟩, h | .ifExpr _ _ _, s, s', hi, ⟨d, rest, hs⟩, h
  | .loop _, s, s', hi, ⟨d, rest, hs⟩, h | .whileLoop _ _, s, s', hi, ⟨d, rest, hs⟩, h
  | .forLoop _ _ _, s, s', hi, ⟨d, rest, hs⟩, h | .break_, s, s', hi, ⟨d, rest, hs⟩, h
  | .continue_, s, s', hi, ⟨d, rest, hs⟩, h | .block _ _, s, s', hi, ⟨d, rest, hs⟩, h
  | .return_ _, s, s', hi, ⟨d, rest, hs⟩, h | .nullProp _, s, s', hi, ⟨d, rest, hs⟩, h
  | .errProp _, s, s', hi, ⟨d, rest, hs⟩, h | .field _ _, s, s', hi, ⟨d, rest, hs⟩, h
  | .superAccess _ _, s, s', hi, ⟨d, rest, hs⟩, h | .call _ _, s, s', hi, ⟨d, rest, hs⟩, h
  | .superCall _, s, s', hi, ⟨d, rest, hs⟩, h | .index _ _, s, s', hi, ⟨d, rest, hs⟩, h => by
    obtain ⟨-, rfl⟩ := M.pure_inv h
    exact ⟨rfl, .refl hi hs⟩

theorem scanExprs_run : (es : List Expr) → {s s' : CState} → Inv s → (∃ d rest, s.stack = d :: rest) →
    scanExprs es s = .ok ((), s') → scanDecls es s.env = some s'.env ∧ Run s s' [] .nop
  | [], s, s', hi, ⟨d, rest, hs⟩, h => by
    obtain ⟨-, rfl⟩ := M.pure_inv h
    exact ⟨rfl, .refl hi hs⟩
  | e :: es, s, s', hi, hs, h => by
    unfold scanExprs at h
    obtain ⟨_, s1, h1, h2⟩ := M.bind_inv h
    obtain ⟨he1, hr1⟩ := scanExpr_run e hi hs h1
    obtain ⟨he2, hr2⟩ := scanExprs_run es hr1.inv hr1.stack' h2
    exact ⟨by simp [scanDecls, he1, he2], hr1.after hr2⟩

theorem scanDecls_append (es es' : List Expr) (g : Env) :
    scanDecls (es ++ es') g = (scanDecls es g).bind (scanDecls es') := by
  induction es generalizing g with
  | nil => rfl
  | cons e es ih =>
    simp only [List.cons_append, scanDecls]
    cases scanDecl e g with
    | none => rfl
    | some g => exact ih g

theorem scanItems_run {es : List Expr} {t : Option Expr} {s s' : CState} (hi : Inv s) (hs : ∃ d rest, s.stack = d :: rest)
    (h : scanItems es t s = .ok ((), s')) : scanBlock es t s.env = some s'.env ∧ Run s s' [] .nop := by
  unfold scanItems at h
  obtain ⟨_, s1, h1, h2⟩ := M.bind_inv h
  obtain ⟨he1, hr1⟩ := scanExprs_run es hi hs h1
  cases t with
  | none =>
    obtain ⟨-, rfl⟩ := M.pure_inv h2
    exact ⟨by simp [scanBlock, he1], hr1⟩
  | some e =>
    obtain ⟨he2, hr2⟩ := scanExpr_run e hr1.inv hr1.stack' h2
    exact ⟨by simp [scanBlock, scanDecls_append, he1, scanDecls, he2], hr1.after hr2⟩

theorem visitFnEnd_run {s s' : CState} (hi : Inv s) {k : FnKind} (h : visitFnEnd k s = .ok ((), s')) :
    ∃ c, FnEndGen s.env k c s'.env ∧ Run s s' [] c := by
  have other : (∀ j, k ≠ .constructor j) → visitReturn s = .ok ((), s') →
      ∃ c, FnEndGen s.env k c s'.env ∧ Run s s' [] c := fun hk h => by
    obtain ⟨c, hg, hr⟩ := visitReturn_run hi h
    exact ⟨c, .other hk hg, hr⟩
  unfold visitFnEnd at h
  cases k with
  | function => exact other (by simp) h
  | staticMethod => exact other (by simp) h
  | method => exact other (by simp) h
  | constructor j =>
    simp only at h
    obtain ⟨r, s1, h1, h2⟩ := M.bind_inv h
    clear h
    obtain ⟨rfl, hl, -⟩ := lookupLocal_inv h1
    cases r with
    | none => exact (M.fail_inv h2).elim
    | some v =>
      simp only at h2
      obtain ⟨_, s2, h3, h4⟩ := M.bind_inv h2
      obtain ⟨_, s3, h5, h6⟩ := M.bind_inv h4
      obtain ⟨r1, e1⟩ := emit_run hi h3 rfl
      obtain ⟨r2, e2⟩ := emit1_run r1.inv h5 rfl
      obtain ⟨r3, e3⟩ := emit_run r2.inv h6 rfl
      refine ⟨_, ?_, r1.seq (r2.seq (r3.done))⟩
      rw [e3, e2, e1]
      exact .constructor hl

theorem dropTemporaries_run : (n : Nat) → {s s' : CState} → Inv s → (∃ d rest, s.stack = d :: rest) →
    dropTemporaries n s = .ok ((), s') → Run s s' [] (dropCode n) ∧ s'.env = s.env
  | 0, s, s', hi, ⟨d, rest, hs⟩, h => by
    obtain ⟨-, rfl⟩ := M.pure_inv h
    exact ⟨.refl hi hs, rfl⟩
  | n + 1, s, s', hi, hs, h => by
    unfold dropTemporaries repeatM at h
    obtain ⟨_, s1, h1, h2⟩ := M.bind_inv h
    obtain ⟨_, s2, h3, h4⟩ := M.bind_inv h1
    obtain ⟨r1, e1⟩ := emit_run hi h3 rfl
    obtain ⟨r2, e2⟩ := emit_run r1.inv h4 rfl
    obtain ⟨r3, e3⟩ := dropTemporaries_run n r2.inv r2.stack' h2
    exact ⟨r1.seq (r2.seq r3), by rw [e3, e2, e1]⟩

theorem addLocals_run : (ns : List String) → {s s' : CState} → {l : List (String × Nat)} → Inv s →
    (∃ d rest, s.stack = d :: rest) → addLocals ns s = .ok (l, s') →
    Run s s' [] .nop ∧ s.env.addLocals ns = some (l, s'.env)
  | [], s, s', l, hi, ⟨d, rest, hs⟩, h => by
    obtain ⟨rfl, rfl⟩ := M.pure_inv h
    exact ⟨.refl hi hs, rfl⟩
  | n :: ns, s, s', l, hi, hs, h => by
    unfold addLocals at h
    obtain ⟨slot, s1, h1, h2⟩ := M.bind_inv h
    obtain ⟨rest, s2, h3, h4⟩ := M.bind_inv h2
    obtain ⟨rfl, rfl⟩ := M.pure_inv h4
    obtain ⟨r1, e1⟩ := addLocal_run hi h1
    obtain ⟨r2, e2⟩ := addLocals_run ns r1.inv r1.stack' h3
    exact ⟨r1.after r2, by simp [Env.addLocals, e1, e2]⟩

theorem emitFieldLocals_run : (l : List (String × Nat)) → {s s' : CState} → Inv s → (∃ d rest, s.stack = d :: rest) →
    emitFieldLocals l s = .ok ((), s') → Run s s' [] (fieldLocalsCode l) ∧ s'.env = s.env
  | [], s, s', hi, ⟨d, rest, hs⟩, h => by
    obtain ⟨-, rfl⟩ := M.pure_inv h
    exact ⟨.refl hi hs, rfl⟩
  | (f, slot) :: l, s, s', hi, hs, h => by
    unfold emitFieldLocals at h
    obtain ⟨_, s1, h1, h⟩ := M.bind_inv h
    obtain ⟨_, s2, h2, h⟩ := M.bind_inv h
    obtain ⟨_, s3, h3, h⟩ := M.bind_inv h
    obtain ⟨_, s4, h4, h⟩ := M.bind_inv h
    obtain ⟨r1, e1⟩ := emit1_run hi h1 rfl
    obtain ⟨r2, e2⟩ := emitConst_run r1.inv h2 rfl
    obtain ⟨r3, e3⟩ := emit1_run r2.inv h3 rfl
    obtain ⟨r4, e4⟩ := emit_run r3.inv h4 rfl
    obtain ⟨r5, e5⟩ := emitFieldLocals_run l r4.inv r4.stack' h
    exact ⟨r1.seq (r2.seq (r3.seq (r4.seq r5.done))), by rw [e5, e4, e3, e2, e1]⟩

theorem emitOp_run {s s' : CState} (hi : Inv s) {op : AssignOp} (h : op.emitOp s = .ok ((), s')) :
    ∃ o, AssignOp.opcode op = some o ∧ Run s s' [] (.op o) ∧ s'.env = s.env := by
  cases op with
  | assign => exact (M.fail_inv (s := s) h).elim
  | mul => exact ⟨_, rfl, emit_run hi h rfl⟩
  | div => exact ⟨_, rfl, emit_run hi h rfl⟩
  | add => exact ⟨_, rfl, emit_run hi h rfl⟩
  | sub => exact ⟨_, rfl, emit_run hi h rfl⟩

theorem visitInt_run {s s' : CState} (hi : Inv s) {i : Int} (h : visitInt i s = .ok ((), s')) :
    Run s s' [] (intCode i) ∧ s'.env = s.env := by
  unfold visitInt at h
  unfold intCode
  by_cases h0 : i = 0
  · rw [if_pos h0] at h ⊢; exact emit_run hi h rfl
  · rw [if_neg h0] at h ⊢
    by_cases h1 : i = 1
    · rw [if_pos h1] at h ⊢; exact emit_run hi h rfl
    · rw [if_neg h1] at h ⊢; exact pushInt_run hi h

theorem visitFloat_run {s s' : CState} (hi : Inv s) {f : Float} (h : visitFloat f s = .ok ((), s')) :
    ∃ c, FloatCode f c ∧ Run s s' [] c ∧ s'.env = s.env := by
  unfold visitFloat at h
  by_cases h0 : (f == 0.0) = true
  · rw [if_pos h0] at h; exact ⟨_, .zero h0, emit_run hi h rfl⟩
  · rw [if_neg h0] at h
    by_cases h1 : (f == 1.0) = true
    · rw [if_pos h1] at h; exact ⟨_, .one h1, emit_run hi h rfl⟩
    · rw [if_neg h1] at h
      obtain ⟨y, hy, hr, he⟩ := pushFloat_run hi h
      exact ⟨_, .other hy (by simpa using h0), hr, he⟩

end Dice
