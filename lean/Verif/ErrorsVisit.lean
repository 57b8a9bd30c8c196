import Verif.Errors
import Verif.GenProps

/-!
# Why the compiler rejects an expression
-/

namespace Dice

/-- Something in the expression explains the error. -/
def Blame (p : Site) (e : Expr) (err : CErr) : Prop := ∃ q e', Occurs p e q e' ∧ Culprit q e' err

theorem Occurs.inside {p q r : Site} {e d d' : Expr} (hi : Inside p e q d) (h : Occurs q d r d') : Occurs p e r d' := by
  induction h with
  | here => exact .step .here hi
  | step _ h ih => exact .step ih h

theorem Blame.here {p : Site} {e : Expr} {err : CErr} (h : Culprit p e err) : Blame p e err := ⟨p, e, .here, h⟩

theorem Blame.inside {p q : Site} {e d : Expr} {err : CErr} (hi : Inside p e q d) (h : Blame q d err) : Blame p e err := by
  obtain ⟨r, d', ho, hc⟩ := h
  exact ⟨r, d', ho.inside hi, hc⟩

/-- The compiler succeeds on the expression, or something in it explains the error. -/
def VisE (e : Expr) : Prop := ∀ n v, Vis n (visit e) v { v with site := afterExpr e v.site } (Blame v.site e)

section
variable {α β : Type} {n : Nat} {v w : View} {B : CErr → Prop}

theorem wp_bindv {x : M α} {f : α → M β} {Q' : β → Nat → View → Prop} (hx : Wp n x v (fun _ _ w' => w' = w) B)
    (hf : ∀ a m, n ≤ m → Wp m (f a) w Q' B) : Wp n (x >>= f) v Q' B :=
  wp_bind hx fun a m _ hm e => e ▸ hf a m hm

theorem wp_jumpb {o : Opcode} {f : Nat → M β} {Q' : β → Nat → View → Prop}
    (hf : ∀ j m, n ≤ m → j + 2 ≤ m → Wp m (f j) v Q' B) : Wp n (emitJump o >>= f) v Q' B :=
  wp_bind wp_jump fun j m _ hm e => e.2 ▸ hf j m hm e.1

theorem wp_lookupb {x : String} {f : Option ScopeVar → M β} {Q' : β → Nat → View → Prop}
    (hf : ∀ r m, n ≤ m → v.site.lookupHere x = r.map ScopeVar.toName → Wp m (f r) v Q' B) : Wp n (lookupLocal x >>= f) v Q' B :=
  wp_bind wp_lookup fun r m _ hm e => e.1 ▸ hf r m hm (e.1 ▸ e.2)

theorem wp_getb {f : Ctx → M β} {Q' : β → Nat → View → Prop}
    (hf : ∀ c m, n ≤ m → v.site.head? = some c.place → Wp m (f c) v Q' B) : Wp n (getCtx >>= f) v Q' B :=
  wp_bind wp_getCtx fun r m _ hm e => e.1 ▸ hf r m hm (e.1 ▸ e.2)

theorem wp_topb {f : ScopeContext → M β} {Q' : β → Nat → View → Prop}
    (hf : ∀ sc m, n ≤ m → v.site.depth = sc.depth → (∀ h ∈ sc.callContext.exitPoints, h + 2 ≤ m) →
      (∃ l, v.calls = sc.callContext.depth :: l) → Wp m (f sc) v Q' B) :
    Wp n (topScope >>= f) v Q' B :=
  wp_bind wp_topScope fun r m w hm e => by
    obtain ⟨rfl, h1, h2, h3⟩ := e
    exact hf r m hm h1 h2 h3

theorem wp_tempsb {f : Nat → M β} {Q' : β → Nat → View → Prop}
    (hf : ∀ m, n ≤ m → Wp m (f v.temps) v Q' B) : Wp n (getTemporaries >>= f) v Q' B :=
  wp_bind wp_temps fun k m w hm e => by
    obtain ⟨rfl, rfl⟩ := e
    exact hf m hm

theorem wp_takeb {f : CallContext → M β} {Q' : β → Nat → View → Prop}
    (hf : ∀ cc a l m, n ≤ m → v.calls = a :: l → cc.depth = a → (∀ h ∈ cc.exitPoints, h + 2 ≤ m) →
      Wp m (f cc) { v with calls := 0 :: l } Q' B) : Wp n (takeCallContext >>= f) v Q' B := by
  refine wp_bind (Q := fun cc m w => ∃ l, v.calls = cc.depth :: l ∧ w = { v with calls := 0 :: l } ∧
    ∀ h ∈ cc.exitPoints, h + 2 ≤ m) ?_ ?_
  · unfold takeCallContext
    refine wp_topb fun sc m hm _ hh hl => ?_
    obtain ⟨l, hl⟩ := hl
    refine wp_then (vis_setCall hl fun _ h => nomatch h) fun m' hm' => wp_pure ⟨l, hl, rfl, fun h hi => ?_⟩
    exact Nat.le_trans (hh h hi) hm'
  · intro cc m w hm h
    obtain ⟨l, hl, rfl, hh⟩ := h
    exact hf cc _ l m hm hl rfl hh

theorem wp_popb {a b : Nat} {l : List Nat} (hv : v.calls = a :: b :: l) {f : ScopeContext → M β} {Q' : β → Nat → View → Prop}
    (hf : ∀ sc m, n ≤ m → (∀ h ∈ sc.exitPoints, h + 2 ≤ m) → Wp m (f sc) ⟨v.site.leave, b :: l, v.temps⟩ Q' B) :
    Wp n (Dice.popScope >>= f) v Q' B :=
  wp_bind (wp_popScope hv) fun r m w hm e => by
    obtain ⟨rfl, h⟩ := e
    exact hf r m hm h

theorem wp_failb {e : CErr} {f : α → M β} {Q' : β → Nat → View → Prop} (h : B e) : Wp n (M.fail e >>= f) v Q' B :=
  wp_bind (Q := fun _ _ _ => False) (wp_fail h) fun _ _ _ _ h => h.elim

theorem kind_head {c : Ctx} {q : Site} (h : q.head? = some c.place) : q.kind = some c.kind := by
  cases q with
  | nil => cases h
  | cons f q => cases h; rfl

/-! ## Sequences -/

theorem vis_els {t : Option Expr} (ht : ∀ e ∈ t, VisE e)
    (hB : ∀ q e err, InList v.site t.toList q e → Blame q e err → B err) :
    Vis n (visitElse t) v { v with site := afterOpt t v.site } B := by
  cases t with
  | none => rw [visitElse]; exact vis_emit
  | some e => rw [visitElse]; exact (ht e rfl n v).weaken fun err h => hB _ _ _ .head h

theorem vis_seq {es : List Expr} {t : Option Expr} (hes : ∀ e ∈ es, VisE e) (ht : ∀ e ∈ t, VisE e)
    (hB : ∀ q e err, InList v.site (es ++ t.toList) q e → Blame q e err → B err) :
    Vis n (visitSeq es (visitElse t)) v { v with site := afterOpt t (afterAll es v.site) } B := by
  induction es generalizing n v with
  | nil => rw [visitSeq]; exact vis_els ht hB
  | cons e es ih =>
    rw [visitSeq]
    refine wp_then ((hes e (List.mem_cons_self ..) n v).weaken fun err h => hB _ _ _ .head h) fun m hm => ?_
    refine wp_then vis_emit fun m hm => ?_
    exact ih (v := { v with site := afterExpr e v.site }) (fun d hd => hes d (List.mem_cons_of_mem _ hd)) fun q d err hi h => hB q d err (.tail hi) h

theorem vis_items {es : List Expr} (hes : ∀ e ∈ es, VisE e)
    (hB : ∀ q e err, InList v.site es q e → Blame q e err → B err) :
    Vis n (visitItems es) v { v with site := afterAll es v.site } B := by
  induction es generalizing n v with
  | nil => rw [visitItems]; exact vis_skip
  | cons e es ih =>
    rw [visitItems]
    refine wp_then ((hes e (List.mem_cons_self ..) n v).weaken fun err h => hB _ _ _ .head h) fun m hm => ?_
    exact ih (v := { v with site := afterExpr e v.site }) (fun d hd => hes d (List.mem_cons_of_mem _ hd)) fun q d err hi h => hB q d err (.tail hi) h

theorem vis_fields {fs : List (String × Expr)} (hfs : ∀ f ∈ fs, VisE f.2) (hc : B .tooManyConstants)
    (hB : ∀ q e err, InList v.site (fs.map (·.2)) q e → Blame q e err → B err) :
    Vis n (visitFields fs) v { v with site := afterFields fs v.site } B := by
  induction fs generalizing n v with
  | nil => rw [visitFields]; exact vis_skip
  | cons f fs ih =>
    obtain ⟨f, e⟩ := f
    rw [visitFields]
    refine wp_then vis_emit1 fun m hm => ?_
    refine wp_then ((hfs (f, e) (List.mem_cons_self ..) m v).weaken fun err h => hB _ _ _ .head h) fun m hm => ?_
    refine wp_then (vis_emitConst hc) fun m hm => ?_
    refine wp_then vis_emit fun m hm => ?_
    exact ih (v := { v with site := afterExpr e v.site }) (fun d hd => hfs d (List.mem_cons_of_mem _ hd)) fun q d err hi h => hB q d err (.tail hi) h

theorem vis_args {es : List Expr} (hes : ∀ e ∈ es, VisE e)
    (hB : ∀ q e err, InList v.site es q e → Blame q e err → B err) :
    Vis n (visitArgs es) v ⟨afterAll es v.site, v.calls, v.temps + es.length⟩ B := by
  induction es generalizing n v with
  | nil => rw [visitArgs]; exact vis_skip
  | cons e es ih =>
    rw [visitArgs]
    refine wp_then (w := ⟨afterExpr e v.site, v.calls, v.temps + 1⟩) ?_ fun m hm => ?_
    · unfold visitArg
      refine wp_takeb fun cc a l m hm hv hd hh => ?_
      refine wp_tempsb fun m' hm' => ?_
      refine wp_then vis_setTemps fun m' hm' => ?_
      refine wp_then ((hes e (List.mem_cons_self ..) _ _).weaken fun err h => hB _ _ _ .head h) fun m' hm' => ?_
      refine (vis_setCall (a := 0) (l := l) rfl fun h hh' => ?_).mono (fun _ _ _ h => ?_) fun _ h => h
      · have := hh h hh'; omega
      · rw [h, hd, ← hv]
    · have := ih (n := m) (v := ⟨afterExpr e v.site, v.calls, v.temps + 1⟩)
        (fun d hd => hes d (List.mem_cons_of_mem _ hd)) fun q d err hi h => hB q d err (.tail hi) h
      rw [show v.temps + (e :: es).length = v.temps + 1 + es.length by simp; omega]
      exact this

/-! ## Chains -/

theorem vis_inCall {x : M Unit} {q : Site}
    (hx : ∀ n a l, v.calls = a :: l → Vis n x { v with calls := (a + 1) :: l } ⟨q, (a + 1) :: l, v.temps⟩ B) :
    Vis n (inCall x) v { v with site := q } B := by
  refine wp_calls fun a l hv => ?_
  unfold inCall
  refine wp_then (w := { v with calls := (a + 1) :: l }) ?_ fun m hm => ?_
  · unfold enterCall
    refine wp_topb fun sc m hm _ hh hl => ?_
    obtain ⟨l', hl⟩ := hl
    rw [hv] at hl
    injection hl with h1 h2
    subst h1 h2
    exact vis_setCall hv hh
  refine wp_then (hx m a l hv) fun m hm => ?_
  unfold exitCall
  refine wp_topb fun sc m hm _ hh hl => ?_
  obtain ⟨l', hl⟩ := hl
  injection hl with h1 h2
  rw [← h1]
  cases a with
  | zero =>
    dsimp only
    refine wp_then (vis_setCall (v := ⟨q, 1 :: l, v.temps⟩) rfl fun _ h => nomatch h) fun m' hm' => ?_
    refine (vis_patchAll fun p hp => Nat.le_trans (hh p hp) hm').mono (fun _ _ _ h => ?_) fun _ h => h
    rw [h, hv]
  | succ d =>
    refine (vis_setCall (v := ⟨q, (d + 1 + 1) :: l, v.temps⟩) (cc := ⟨d + 1, sc.callContext.exitPoints⟩) rfl hh).mono (fun _ _ _ h => ?_) fun _ h => h
    rw [h, hv]

theorem VisE.sub {a e : Expr} {p : Site} (h : VisE a) (hi : Inside p e v.site a) :
    Vis n (visit a) v { v with site := afterExpr a v.site } (Blame p e) :=
  (h n v).weaken fun _ hb => hb.inside hi

theorem Blame.constants {p : Site} {e : Expr} : Blame p e .tooManyConstants := .here .constants

theorem vis_field {a : Expr} {f : String} (h : VisE a) : VisE (.field a f) := fun n v => by
  rw [visit, afterExpr]
  exact vis_inCall fun n a l hv => wp_then (h.sub .field) fun m hm => vis_emitConst .constants

theorem vis_nullProp {a : Expr} (h : VisE a) : VisE (.nullProp a) := fun n v => by
  rw [visit, afterExpr]
  refine vis_inCall fun n a l hv => ?_
  unfold visitNullProp
  refine wp_then (h.sub .nullProp) fun m hm => wp_then vis_emit1 fun m hm => wp_then vis_emit fun m hm =>
    wp_then vis_emit fun m hm => wp_jumpb fun j m hm hj => wp_topb fun sc m' hm' _ hh hl => ?_
  obtain ⟨l', hl⟩ := hl
  injection hl with h1 h2
  subst h2
  refine (vis_setCall rfl ?_).mono (fun _ _ _ h => ?_) fun _ h => h
  · intro x hx
    rcases List.mem_append.1 hx with hx | hx
    · exact hh x hx
    · cases List.mem_singleton.1 hx
      omega
  · rw [h, ← h1]

theorem result_uses {q q' : Site} {e : Expr} (hk : q'.kind = q.kind)
    (he : e.uses q = (q.kind.bind CompilerKind.result).toList.map (·.name)) (hi : ∀ x, e ≠ .ident x)
    {k : CompilerKind} {t : TypeAnn} (h : q'.kind = some k) (ht : k.result = some t) : Blame q e (.notInitialized t.name) := by
  refine .here (.notReady ?_ fun h => absurd h (hi _))
  rw [he, ← hk, h]
  simp [ht]

theorem vis_errProp {a : Expr} (h : VisE a) : VisE (.errProp a) := fun n v => by
  rw [visit, afterExpr]
  refine vis_inCall fun n a' l hv => ?_
  unfold visitErrProp
  refine wp_getb fun c m hm hc => ?_
  have hk := kind_head hc
  dsimp only
  split
  rotate_left 2
  · rename_i h1 h2
    refine wp_failb (.here (.errProp ?_ ?_))
    · intro t ht; exact h1 t (Option.some.inj (hk.symm.trans ht))
    · intro t ht; exact h2 t (Option.some.inj (hk.symm.trans ht))
  all_goals
  exact wp_then (h.sub .errProp) fun m hm => wp_tempsb fun m hm => wp_then vis_emit1 fun m hm =>
    wp_then (vis_emitConst .constants) fun m hm => wp_jumpb fun j m hm hj => wp_then vis_drop fun m' hm' =>
    wp_then (vis_visitReturn .constants fun k t hk ht => result_uses (grows_expr ..).kind rfl (by simp) hk ht) fun m'' hm'' =>
    wp_then (vis_patch (by omega)) fun m hm => vis_emitConst .constants

theorem vis_superAccess {f : String} {c : Option String} : VisE (.superAccess f c) := fun n v => by
  rw [visit, afterExpr]
  refine vis_inCall fun n a' l hv => ?_
  unfold visitSuperAccess
  refine wp_getb fun d m hm hc => ?_
  have hk := kind_head hc
  have id1 : ∀ m x, x = c.getD nameSuper → Vis m (visitIdent x) { v with calls := (a' + 1) :: l } { v with calls := (a' + 1) :: l }
      (Blame v.site (.superAccess f c)) := fun m x hx =>
    vis_ident .constants fun _ _ _ => .here (.notReady (by simp [Expr.uses, hx]) fun h => nomatch h)
  have rest : ∀ m, Vis m (do visitIdent nameSelf; emitConst .loadMethod f) { v with calls := (a' + 1) :: l } { v with calls := (a' + 1) :: l }
      (Blame v.site (.superAccess f c)) := fun m =>
    wp_then (vis_ident .constants fun _ _ _ => .here (.notReady (by simp [Expr.uses]) fun h => nomatch h)) fun m hm => vis_emitConst .constants
  dsimp only
  split
  rotate_left 2
  · rename_i h1 h2
    refine wp_failb (.here (.superAccess ?_ ?_))
    · intro t ht; exact h1 t (Option.some.inj (hk.symm.trans ht))
    · intro ht; exact h2 (Option.some.inj (hk.symm.trans ht))
  all_goals
    cases c with
    | none => exact wp_then (id1 m _ rfl) fun m hm => rest m
    | some c => exact wp_then (id1 m _ rfl) fun m hm => rest m

theorem vis_call {a : Expr} {es : List Expr} (h : VisE a) (hes : ∀ e ∈ es, VisE e) : VisE (.call a es) := fun n v => by
  rw [visit, afterExpr]
  refine vis_inCall fun n a' l hv => ?_
  unfold visitCall
  exact wp_then (h.sub (.call .head)) fun m hm => wp_tempsb fun m hm =>
    wp_then (vis_args hes fun q e err hi hb => hb.inside (.call (.tail hi))) fun m hm => wp_then vis_setTemps fun m hm => vis_emit1

theorem vis_superCall {es : List Expr} (hes : ∀ e ∈ es, VisE e) : VisE (.superCall es) := fun n v => by
  rw [visit, afterExpr]
  refine vis_inCall fun n a' l hv => ?_
  unfold visitSuperCall
  refine wp_lookupb fun r m hm hr => ?_
  cases r with
  | none => exact wp_failb (.here (.superCall hr))
  | some u =>
  exact wp_then vis_emit1 fun m hm => wp_tempsb fun m hm =>
    wp_then (vis_args hes fun q e err hi hb => hb.inside (.superCall hi)) fun m hm => wp_then vis_setTemps fun m hm =>
    wp_then (vis_ident .constants fun _ _ _ => .here (.notReady (by simp [Expr.uses]) fun h => nomatch h)) fun m hm => vis_emit1

theorem vis_index {a i : Expr} (h : VisE a) (hi : VisE i) : VisE (.index a i) := fun n v => by
  rw [visit, afterExpr]
  refine vis_inCall fun n a' l hv => ?_
  unfold visitIndex
  refine wp_then (h.sub (.index .head)) fun m hm => wp_takeb fun cc b l' m hm hv' hd hh => ?_
  injection hv' with h1 h2
  subst h1 h2
  refine wp_tempsb fun m1 hm1 => wp_then vis_setTemps fun m2 hm2 => wp_then (hi.sub (.index (.tail .head))) fun m3 hm3 =>
    wp_tempsb fun m4 hm4 => ?_
  refine wp_then vis_setTemps fun m5 hm5 => ?_
  refine wp_then (vis_setCall rfl fun h hh' => ?_) fun m6 hm6 => ?_
  · have := hh h hh'; omega
  · rw [hd]; exact vis_emit

/-! ## Operators -/

theorem vis_unary {op : UnaryOp} {a : Expr} (h : VisE a) : VisE (.unary op a) := fun n v => by
  rw [visit_unary, afterExpr]
  exact wp_then (h.sub .unary) fun m hm => vis_emit

theorem vis_binary {op : BinaryOp} {a b : Expr} (ha : VisE a) (hb : VisE b) : VisE (.binary op a b) := fun n v => by
  rw [visit]
  by_cases hop : op = .pipeline
  · subst hop
    rw [afterExpr]
    exact wp_then (hb.sub (.pipeline .head)) fun m hm => wp_then (ha.sub (.pipeline (.tail .head))) fun m hm => vis_emit1
  · have after : afterExpr (.binary op a b) v.site = afterExpr b (afterExpr a v.site) := by
      cases op <;> first | rw [afterExpr] <;> simp | exact absurd rfl hop
    rw [after]
    have h1 : ∀ n, Vis n (visit a) v { v with site := afterExpr a v.site } (Blame v.site (.binary op a b)) :=
      fun n => ha.sub (.binary hop .head)
    have h2 : ∀ n, Vis n (visit b) { v with site := afterExpr a v.site } { v with site := afterExpr b (afterExpr a v.site) }
        (Blame v.site (.binary op a b)) := fun n => hb.sub (.binary hop (.tail .head))
    cases op with
    | pipeline => exact absurd rfl hop
    | logicalAnd | logicalOr =>
      exact wp_then (h1 _) fun m hm => wp_then vis_emit1 fun m hm => wp_then vis_emit fun m hm => wp_jumpb fun j m hm hj =>
        wp_then vis_emit fun m1 hm1 => wp_then (h2 _) fun m2 hm2 => wp_then vis_emit fun m3 hm3 => vis_patch (by omega)
    | coalesce =>
      exact wp_then (h1 _) fun m hm => wp_then vis_emit1 fun m hm => wp_then vis_emit fun m hm => wp_then vis_emit fun m hm =>
        wp_jumpb fun j m hm hj => wp_then vis_emit fun m1 hm1 => wp_then (h2 _) fun m2 hm2 => vis_patch (by omega)
    | _ => exact wp_then (h1 _) fun m hm => wp_then (h2 _) fun m hm => vis_emit

theorem vis_is {a : Expr} {t : TypeAnn} (h : VisE a) : VisE (.is a t) := fun n v => by
  have id1 : ∀ m q, Vis m (visitIdent t.name) { v with site := q } { v with site := q } (Blame v.site (.is a t)) := fun m q =>
    vis_ident .constants fun _ _ _ => .here (.notReady (by simp [Expr.uses]) fun h => nomatch h)
  rw [visit, afterExpr]
  unfold visitIs
  by_cases hn : t.isNullable = true
  · rw [if_pos hn, if_pos hn]
    exact wp_then (h.sub .is) fun m hm => wp_then vis_emit fun m hm => wp_then vis_emit fun m hm => wp_then vis_emit1 fun m hm =>
      wp_jumpb fun j m hm hj => wp_then vis_emit fun m1 hm1 => wp_then (h.sub (.isAgain hn)) fun m2 hm2 =>
      wp_then (id1 _ _) fun m3 hm3 => wp_then vis_emit fun m4 hm4 => vis_patch (by omega)
  · rw [if_neg hn, if_neg hn]
    exact wp_then (h.sub .is) fun m hm => wp_then (id1 _ _) fun m hm => vis_emit

theorem vis_if {a b : Expr} {c : Option Expr} (ha : VisE a) (hb : VisE b) (hc : ∀ e ∈ c, VisE e) : VisE (.ifExpr a b c) := fun n v => by
  rw [visit, afterExpr]
  unfold visitIf
  exact wp_then (ha.sub (.ifExpr .head)) fun m hm => wp_jumpb fun j m hm hj => wp_then (hb.sub (.ifExpr (.tail .head))) fun m1 hm1 =>
    wp_jumpb fun k m2 hm2 hk => wp_then (vis_patch (by omega)) fun m3 hm3 =>
    wp_then (vis_els hc fun q e err hi hb => hb.inside (.ifExpr (.tail (.tail hi)))) fun m4 hm4 => vis_patch (by omega)

theorem vis_int {i : Int} : VisE (.int i) := fun n v => by
  rw [visit, afterExpr]
  unfold visitInt
  split
  · exact vis_emit
  · split
    · exact vis_emit
    · exact vis_pushConst .constants

theorem vis_float {f : Float} : VisE (.float f) := fun n v => by
  rw [visit, afterExpr]
  unfold visitFloat
  split
  · exact vis_emit
  · split
    · exact vis_emit
    · exact vis_pushConst .constants

theorem vis_object {fs : List (String × Expr)} (h : ∀ f ∈ fs, VisE f.2) : VisE (.object fs) := fun n v => by
  rw [visit, afterExpr]
  exact wp_then vis_emit fun m hm => vis_fields h .constants fun q e err hi hb => hb.inside (.object hi)

theorem vis_list {es : List Expr} (h : ∀ e ∈ es, VisE e) : VisE (.list es) := fun n v => by
  rw [visit, afterExpr]
  exact wp_then (vis_items h fun q e err hi hb => hb.inside (.list hi)) fun m hm => vis_emit1

/-! ## Declarations -/

theorem vis_varDecl {k : VarKind} {m : Bool} {a : Expr} {t : Option TypeAnn} (h : VisE a) : VisE (.varDecl k m a t) := fun n v => by
  rw [visit]
  refine wp_then (h.sub .varDecl) fun i hi => ?_
  cases k with
  | singular x =>
    rw [afterExpr]
    refine wp_bindv vis_addLocal fun slot i hi => wp_then vis_emit1 fun i hi => ?_
    exact vis_localType .constants fun u hu => .here (.notReady (by simp [Expr.uses, hu]) fun h => nomatch h)
  | destructured xs =>
    rw [afterExpr]
    exact wp_bindv (vis_addLocals xs) fun _ i hi => vis_fieldLocals .constants

theorem vis_import {m : Option String} {xs : List String} {path : String} : VisE (.importDecl m xs path) := fun n v => by
  rw [visit, afterExpr]
  unfold visitImport
  refine wp_bindv (vis_addLocals xs) fun _ i hi => wp_then (vis_emitConst .constants) fun i hi =>
    wp_then (vis_fieldLocals .constants) fun i hi => ?_
  cases m with
  | none => exact vis_skip
  | some m => exact wp_bindv vis_addLocal fun slot i hi => vis_emit1

theorem vis_export {a : Expr} (h : VisE a) : VisE (.exportDecl a) := fun n v => by
  rw [visit, afterExpr]
  unfold visitExport
  refine wp_getb fun c m hm hc => ?_
  have hk := kind_head hc
  by_cases hmod : c.kind = .module
  · rw [hmod] at hk ⊢
    refine wp_topb fun sc m hm hd _ _ => ?_
    by_cases hdepth : sc.depth > 1
    · rw [if_pos hdepth]
      exact wp_failb (.here (.export_ fun _ => by omega))
    · rw [if_neg hdepth]
      refine wp_lookupb fun r m hm hr => ?_
      cases r with
      | none => exact wp_failb (.here (.exportObject hk hr))
      | some u =>
      refine wp_then vis_emit1 fun m hm => ?_
      refine wp_then (h.sub .exportDecl) fun m hm => ?_
      cases hn : exportName a with
      | none =>
        refine wp_fail (.here (.exportNode ?_))
        cases a <;> first | rfl | simp [exportName] at hn
        rename_i k _ _ _
        cases k <;> first | rfl | simp [exportName] at hn
      | some x => exact vis_emitConst .constants
  · have : Blame v.site (.exportDecl a) .invalidExport :=
      .here (.export_ fun h => absurd (Option.some.inj (hk.symm.trans h)) hmod)
    dsimp only
    split
    · rename_i h; exact absurd h hmod
    · exact wp_failb this

/-! ## Functions -/

/-- Everything in the body of a function compiles or explains the error. -/
def VisB (b : Expr) : Prop := (∀ e ∈ bodyExprs b, VisE e) ∧ ∀ e ∈ bodyTrailing b, VisE e

theorem visitBody_eq (b : Expr) : visitBody b = visitSeq (bodyExprs b) (visitElse (bodyTrailing b)) := by
  cases b <;> simp only [visitBody, bodyExprs, bodyTrailing, visitSeq, visitElse]

theorem vis_fresh : Wp n freshId v (fun _ _ w => w = v) B := fun _ _ hs =>
  ⟨n, v, Nat.le_refl _, ⟨hs.fine, hs.site, hs.tail, hs.head⟩, rfl⟩

theorem vis_fnValue {fn : Ctx} {name : String} {id : Nat} (hB : B .tooManyConstants) (hU : B .tooManyUpvalues) :
    Vis n (emitFnValue fn name id) v v B := by
  unfold emitFnValue
  split
  · exact vis_pushConst hB
  · exact vis_closure hB hU

theorem vis_unique {args : List FnArg} (hB : ¬ (args.map FnArg.name).Nodup → B .duplicateArgs) : Vis n (assertUniqueParams args) v v B := by
  unfold assertUniqueParams
  by_cases h : (args.map (·.name)).Nodup
  · rw [if_pos h]; exact vis_skip
  · rw [if_neg h]; exact wp_fail (hB h)

theorem wp_compileFn {k : FnKind} {args : List FnArg} {ret : Option TypeAnn} {body : Expr} (hb : VisB body) (ht : TypesOk args ret B)
    (hself : ∀ c, k = .constructor c → hasReceiver args = true)
    (hsuper : k = .constructor .derived → startsWithSuperCall (bodyExprs body) (bodyTrailing body) = false → B .newMustCallSuper)
    (hret : ∀ c, k = .constructor c → ret.isSome → B .newCannotHaveReturnType)
    (hin : ∀ q e err, InFn v.site k args ret body q e → Blame q e err → B err) :
    Wp n (compileFn k args ret (bodyExprs body) (bodyTrailing body) (visitBody body)) v (fun _ _ w => w = v) B := by
  have main : Wp n (pushCtx (fnCompilerKind k ret) >>= fun _ =>
      inFnBlock k args (bodyExprs body) (bodyTrailing body) (visitBody body) >>= fun _ => popCtx) v (fun _ _ w => w = v) B := by
    refine wp_fn (wp_fnBlock ht hself hsuper ((grows_all (bodyExprs body) _).trans (grows_opt (bodyTrailing body) _)) fun n => ?_)
    rw [visitBody_eq]
    exact vis_seq hb.1 hb.2 fun q e err hi h => hin q e err (.intro hi) h
  unfold compileFn
  dsimp only
  split
  · exact wp_failb (hret _ rfl rfl)
  · exact main

theorem signature_arg {args : List FnArg} {ret : Option TypeAnn} {a : FnArg} (ha : a ∈ args) {t : TypeAnn} (h : a.type_ = some t) :
    t.name ∈ signatureNames args ret :=
  List.mem_map.2 ⟨t, List.mem_append_left _ (List.mem_filterMap.2 ⟨a, ha, h⟩), rfl⟩

theorem signature_ret {args : List FnArg} {ret : Option TypeAnn} {t : TypeAnn} (h : ret = some t) : t.name ∈ signatureNames args ret :=
  List.mem_map.2 ⟨t, List.mem_append_right _ (by simp [h]), rfl⟩

theorem typesOk {p : Site} {e : Expr} {args : List FnArg} {ret : Option TypeAnn} (h : ∀ x ∈ signatureNames args ret, x ∈ e.uses p)
    (hi : ∀ x, e ≠ .ident x) : TypesOk args ret (Blame p e) :=
  ⟨.constants, fun _ ha _ ht => .here (.notReady (h _ (signature_arg ha ht)) fun h => absurd h (hi _)),
    fun _ ht => .here (.notReady (h _ (signature_ret ht)) fun h => absurd h (hi _))⟩

theorem vis_anonFn {args : List FnArg} {ret : Option TypeAnn} {b : Expr} (hb : VisB b) : VisE (.anonFn args ret b) := fun n v => by
  rw [visit_anonFn, afterExpr]
  unfold visitAnonFn
  refine wp_bindv vis_fresh fun id m hm => ?_
  refine wp_bindv (wp_compileFn hb (typesOk (fun _ h => h) (by simp)) (by simp) (by simp) (by simp)
    fun q e err hi h => h.inside (.anonFn hi)) fun fn m hm => ?_
  exact vis_fnValue .constants (.here .upvalues)

theorem vis_fnDecl {name : String} {args : List FnArg} {ret : Option TypeAnn} {b : Expr} (hb : VisB b) :
    VisE (.fnDecl name args ret b) := fun n v => by
  rw [visit_fnDecl, afterExpr]
  unfold visitFnDecl
  refine wp_then (vis_unique fun h => .here (.duplicate h)) fun m hm => ?_
  refine wp_bindv (wp_compileFn hb (typesOk (fun _ h => h) (by simp)) (by simp) (by simp) (by simp)
    fun q e err hi h => h.inside (.fnDecl hi)) fun fn m hm => ?_
  refine wp_bindv vis_fresh fun id m hm => ?_
  rw [if_pos rfl]
  unfold emitFnDecl
  refine wp_lookupb fun r m hm hr => ?_
  cases r with
  | none => exact wp_fail (.here (.functionUnknown hr))
  | some u =>
    have hn : u.name = name := lookupHere_name hr
    dsimp only
    split
    · rename_i hst
      refine wp_fail (.here (.functionTwice ?_))
      rw [hr]
      show some (ScopeVar.toName u) = _
      unfold ScopeVar.toName
      rw [hst, hn]
    · exact wp_then vis_setState fun m hm => wp_then (vis_fnValue .constants (.here .upvalues)) fun m hm => vis_emit1
    · rename_i h1 h2
      refine wp_fail (.here (.functionHidden hr fun b hb => ?_))
      have hb : u.state = .function b := hb
      cases b
      · exact h2 hb
      · exact h1 hb

theorem vis_opBody {isMethod : Bool} {op : OverOp} {args : List FnArg} {ret : Option TypeAnn} {b : Expr} (hb : VisB b) (ht : TypesOk args ret B)
    (hU : B .tooManyUpvalues) (hd : ¬ (args.map FnArg.name).Nodup → B .duplicateArgs)
    (hin : ∀ q e err, InFn v.site (if isMethod then .method else .function) args ret b q e → Blame q e err → B err) :
    Vis n (visitOpDecl isMethod op args ret (bodyExprs b) (bodyTrailing b) (visitBody b)) v v B := by
  unfold visitOpDecl
  refine wp_then (vis_unique hd) fun m hm => ?_
  refine wp_bindv (wp_compileFn hb ht ?_ ?_ ?_ hin) fun fn m hm => ?_
  · cases isMethod <;> simp
  · cases isMethod <;> simp
  · cases isMethod <;> simp
  refine wp_bindv vis_fresh fun id m hm => wp_then (vis_fnValue ht.constants hU) fun m hm => ?_
  cases isMethod with
  | true => exact vis_skip
  | false => exact wp_then (vis_emitConst ht.constants) fun m hm => vis_emit

theorem vis_opDecl {op : OverOp} {args : List FnArg} {ret : Option TypeAnn} {b : Expr} (hb : VisB b) :
    VisE (.opDecl op args ret b) := fun n v => by
  rw [visit_opDecl, afterExpr]
  exact vis_opBody hb (typesOk (fun _ h => h) (by simp)) (.here .upvalues) (fun h => .here (.duplicateOp h))
    fun q e err hi h => h.inside (.opDecl hi)

/-! ## Classes -/

theorem receiver_some {args : List FnArg} {a : FnArg} (h : args.head?.filter (fun a => a.name == nameSelf) = some a) :
    ∃ as, args = a :: as ∧ a.name = nameSelf := by
  cases args with
  | nil => cases h
  | cons b as =>
    simp only [List.head?_cons, Option.filter_eq_some_iff, Option.some.injEq] at h
    obtain ⟨rfl, h⟩ := h
    exact ⟨as, rfl, by simpa using h⟩

theorem receiver_none {args : List FnArg} (h : args.head?.filter (fun a => a.name == nameSelf) = none) : hasReceiver args = false := by
  cases args with
  | nil => rfl
  | cons b as =>
    simp only [List.head?_cons, Option.filter_eq_none_iff, Option.some.injEq] at h
    have := h b rfl
    unfold hasReceiver
    simpa using this

theorem starts_body {b : Expr} (h : startsWithSuperCall (bodyExprs b) (bodyTrailing b) = false) : b.startsWithSuper = false := by
  cases b <;> first | rfl | (simp [bodyExprs, bodyTrailing, startsWithSuperCall] at h; done) | skip
  rename_i es t
  cases es with
  | cons e es => cases e <;> first | rfl | (simp [bodyExprs, bodyTrailing, startsWithSuperCall] at h; done)
  | nil =>
    cases t with
    | none => rfl
    | some e => cases e <;> first | rfl | (simp [bodyExprs, bodyTrailing, startsWithSuperCall] at h; done)

/-- The kind of a class. -/
def classKindOf (base : Option Expr) : ClassKind := if base.isSome then .derived else .base

theorem vis_member {p : Site} {name : String} {base : Option Expr} {all : List Expr} {fname : String} {args : List FnArg}
    {ret : Option TypeAnn} {b : Expr} {slot : Nat} (hmem : .fnDecl fname args ret b ∈ all) (hb : VisB b) (hv : v.site = classSite name base p) :
    Vis n (visitClassFn slot (classKindOf base) fname args ret (bodyExprs b) (bodyTrailing b) (visitBody b)) v v
      (Blame p (.classDecl name base all)) := by
  have bad : ∀ {err}, BadMember base.isSome (.fnDecl fname args ret b) err → Blame p (.classDecl name base all) err :=
    fun h => .here (.member hmem h)
  have main : ∀ m k, k = memberKind base.isSome fname args → k ≠ .function → (∀ c, k = .constructor c → fname = nameNew ∧ hasReceiver args = true) →
      Vis m (do
        visitFnDecl k fname args ret (bodyExprs b) (bodyTrailing b) (visitBody b)
        match k with
        | .constructor _ | .method => do emitConst .storeMethod fname; emit1 .loadLocal slot
        | _ => do emitConst .storeField fname; emit .pop; emit1 .loadLocal slot) v v (Blame p (.classDecl name base all)) := by
    intro m k hk hnf hc
    refine wp_then (w := v) ?_ fun m hm => ?_
    · unfold visitFnDecl
      refine wp_then (vis_unique fun h => bad (.duplicate h)) fun m hm => ?_
      refine wp_bindv (wp_compileFn hb (typesOk (fun x hx => ?_) (by simp)) (fun c h => (hc c h).2) ?_ ?_ ?_) fun fn m hm => ?_
      · exact List.mem_cons_of_mem _ (List.mem_flatMap.2 ⟨.fnDecl fname args ret b, hmem, hx⟩)
      · intro hd hs
        obtain ⟨rfl, hr⟩ := hc _ hd
        refine bad (.newSuper ?_ hr (starts_body hs))
        cases hbase : base.isSome with
        | true => rfl
        | false =>
          rw [hd] at hk
          unfold memberKind at hk
          rw [hbase] at hk
          repeat' split at hk
          all_goals first | (cases hk; done) | skip
          all_goals rename_i h; cases h
      · intro c hd hr
        obtain ⟨rfl, hrec⟩ := hc _ hd
        exact bad (.newResult hrec hr)
      · intro q e err hi h
        refine h.inside (.memberFn hmem rfl ?_)
        rw [hk, hv] at hi
        exact hi
      refine wp_bindv vis_fresh fun id m hm => ?_
      rw [if_neg hnf]
      exact vis_fnValue .constants (.here .upvalues)
    · split
      · exact wp_then (vis_emitConst .constants) fun m hm => vis_emit1
      · exact wp_then (vis_emitConst .constants) fun m hm => vis_emit1
      · exact wp_then (vis_emitConst .constants) fun m hm => wp_then vis_emit fun m hm => vis_emit1
  unfold visitClassFn
  dsimp only
  split
  · rename_i a ha
    obtain ⟨as, rfl, hself⟩ := receiver_some ha
    have hrec : hasReceiver (a :: as) = true := by simp [hasReceiver, hself]
    by_cases ht : a.type_.isSome = true
    · rw [if_pos ht]; exact wp_failb (bad (.receiverType hself ht))
    · rw [if_neg ht]
      by_cases hn : (fname == nameNew) = true
      · rw [if_pos hn]
        have hn : fname = nameNew := by simpa using hn
        exact main _ (.constructor (classKindOf base)) (by simp [memberKind, hself, hn, classKindOf]) (by simp) fun _ _ => ⟨hn, hrec⟩
      · rw [if_neg hn]
        have hn : fname ≠ nameNew := by simpa using hn
        exact main _ .method (by simp [memberKind, hself, hn]) (by simp) (by simp)
  · rename_i ha
    have hrec := receiver_none ha
    by_cases hn : (fname == nameNew) = true
    · rw [if_pos hn]
      have hn : fname = nameNew := by simpa using hn
      subst hn
      exact wp_failb (bad (.noReceiver hrec))
    · rw [if_neg hn]
      refine main _ .staticMethod ?_ (by simp) (by simp)
      cases args with
      | nil => rfl
      | cons a as =>
        have : a.name ≠ nameSelf := by simpa [hasReceiver] using hrec
        simp [memberKind, this]

theorem vis_memberOp {p : Site} {name : String} {base : Option Expr} {all : List Expr} {op : OverOp} {args : List FnArg}
    {ret : Option TypeAnn} {b : Expr} {slot : Nat} (hm : .opDecl op args ret b ∈ all) (hb : VisB b) (hv : v.site = classSite name base p) :
    Vis n (visitClassOp slot op args ret (bodyExprs b) (bodyTrailing b) (visitBody b)) v v (Blame p (.classDecl name base all)) := by
  have bad : ∀ {err}, BadMember base.isSome (.opDecl op args ret b) err → Blame p (.classDecl name base all) err :=
    fun h => .here (.member hm h)
  unfold visitClassOp
  dsimp only
  split
  · rename_i a ha
    obtain ⟨as, rfl, hself⟩ := receiver_some ha
    by_cases ht : a.type_.isSome = true
    · rw [if_pos ht]; exact wp_failb (bad (.receiverTypeOp hself ht))
    · rw [if_neg ht]
      refine wp_then (vis_opBody hb (typesOk (fun x hx => ?_) (by simp)) (.here .upvalues) (fun h => bad (.duplicateOp h)) ?_) fun m _ =>
        wp_then (vis_emitConst .constants) fun m _ => vis_emit1
      · exact List.mem_cons_of_mem _ (List.mem_flatMap.2 ⟨.opDecl op (a :: as) ret b, hm, hx⟩)
      · intro q e err hi h
        refine h.inside (.memberOp hm rfl ?_)
        rw [hv] at hi
        exact hi
  · rename_i ha
    exact wp_failb (bad (.noReceiverOp (receiver_none ha)))

theorem vis_members {p : Site} {name : String} {base : Option Expr} {all : List Expr} {slot : Nat} (items : List Expr)
    (hsub : ∀ e ∈ items, e ∈ all) (hv : v.site = classSite name base p)
    (hb : ∀ e ∈ items, ∀ b, (∃ n a r, e = .fnDecl n a r b) ∨ (∃ o a r, e = .opDecl o a r b) → VisB b) :
    Vis n (visitClassItems (classKindOf base) items slot) v v (Blame p (.classDecl name base all)) := by
  induction items generalizing n with
  | nil => rw [visitClassItems]; exact vis_skip
  | cons e rest ih =>
    have tail := fun m => ih (n := m) (fun e he => hsub e (List.mem_cons_of_mem _ he)) fun e he => hb e (List.mem_cons_of_mem _ he)
    have he := hsub e (List.mem_cons_self ..)
    have hbe := hb e (List.mem_cons_self ..)
    cases e with
    | fnDecl f args ret b =>
      have eq : visitClassItems (classKindOf base) (.fnDecl f args ret b :: rest) slot = (do
          visitClassFn slot (classKindOf base) f args ret (bodyExprs b) (bodyTrailing b) (visitBody b)
          visitClassItems (classKindOf base) rest slot) := by
        cases b <;> simp only [visitClassItems, bodyExprs, bodyTrailing, visitBody]
      rw [eq]
      exact wp_then (vis_member he (hbe b (.inl ⟨_, _, _, rfl⟩)) hv) fun m _ => tail m
    | opDecl op args ret b =>
      have eq : visitClassItems (classKindOf base) (.opDecl op args ret b :: rest) slot = (do
          visitClassOp slot op args ret (bodyExprs b) (bodyTrailing b) (visitBody b)
          visitClassItems (classKindOf base) rest slot) := by
        cases b <;> simp only [visitClassItems, bodyExprs, bodyTrailing, visitBody]
      rw [eq]
      exact wp_then (vis_memberOp he (hbe b (.inr ⟨_, _, _, rfl⟩)) hv) fun m _ => tail m
    | _ =>
      rw [visitClassItems] <;> first
        | exact wp_fail (.here (.member he (.other (by simp) (by simp))))
        | simp

theorem vis_class {name : String} {base : Option Expr} {items : List Expr} (hbase : ∀ e ∈ base, VisE e)
    (hb : ∀ e ∈ items, ∀ b, (∃ n a r, e = .fnDecl n a r b) ∨ (∃ o a r, e = .opDecl o a r b) → VisB b) :
    VisE (.classDecl name base items) := fun n v => by
  have eq : visit (.classDecl name base items) = visitClass name
      (match base with | some b => visit b | none => visitIdent nameAny) (visitClassItems (classKindOf base) items) := by
    cases base <;> rw [visit] <;> rfl
  have after : afterExpr (.classDecl name base items) v.site = (classSite name base v.site).leave := by rw [afterExpr]; rfl
  rw [eq, after]
  refine wp_calls fun a l hv => ?_
  unfold visitClass
  refine wp_then (vis_pushScope (e := none) (fun _ h => nomatch h)) fun m hm => ?_
  refine wp_then (w := ⟨afterOpt base (v.site.enter none), 0 :: v.calls, v.temps⟩) ?_ fun m hm => ?_
  · cases base with
    | none => exact vis_ident .constants fun _ _ _ => .here (.notReady (by simp [Expr.uses]) fun h => nomatch h)
    | some b => exact (hbase b rfl).sub .base
  refine wp_bindv vis_addLocal fun sslot m hm => wp_then vis_emit1 fun m hm => ?_
  refine wp_lookupb fun r m hm hr => ?_
  have rest : ∀ m slot, Vis m (do
      emitE fun a => a.inheritClass name
      emit1 .storeLocal slot
      visitClassItems (classKindOf base) items slot
      let sc ← topScope
      closeUpvalues sc.variables
      let _ ← Dice.popScope
      pure ()) ⟨classSite name base v.site, 0 :: v.calls, v.temps⟩ { v with site := (classSite name base v.site).leave }
      (Blame v.site (.classDecl name base items)) := by
    intro m slot
    refine wp_then (vis_thenConst .constants) fun m hm => wp_then vis_emit1 fun m hm => ?_
    refine wp_then (vis_members items (fun _ h => h) rfl hb) fun m hm => ?_
    refine wp_topb fun sc m hm _ _ _ => wp_then vis_closeUpvalues fun m hm => ?_
    refine wp_popb (by show 0 :: v.calls = _; rw [hv]) fun sc m hm _ => wp_pure ?_
    rw [← hv]
  have site : ∀ st, ((afterOpt base (v.site.enter none)).declare nameSuper (.local true true)).lookupHere name = some ⟨name, st⟩ →
      classSite name base v.site = if st = .class false then
        ((afterOpt base (v.site.enter none)).declare nameSuper (.local true true)).mark name (.class true)
        else (afterOpt base (v.site.enter none)).declare nameSuper (.local true true) := by
    intro st h
    simp only [classSite, h, Option.map_some, Option.some.injEq]
  cases r with
  | none => exact wp_failb (.here (.classUnknown hr))
  | some u =>
    have hn : u.name = name := lookupHere_name hr
    have hr' : ((afterOpt base (v.site.enter none)).declare nameSuper (.local true true)).lookupHere name = some ⟨name, u.state⟩ := by
      rw [← hn]; rw [← hn] at hr; exact hr
    have hs := site _ hr'
    dsimp only
    split
    · rename_i hst
      rw [hst] at hr'
      exact wp_failb (.here (.classTwice hr'))
    · rename_i hst
      rw [hst, if_pos rfl] at hs
      refine wp_then vis_setState fun m hm => ?_
      have := rest m u.slot
      rw [hs] at this ⊢
      exact this
    · rename_i h1 h2
      rw [if_neg h2] at hs
      have := rest m u.slot
      rw [hs] at this ⊢
      exact this

/-! ## Assignments -/

theorem lookup_here {p : Site} {x : String} : p.lookup x = (p.lookupHere x).or (Site.lookup x p.tail) := by
  cases p with
  | nil => rfl
  | cons f p =>
    show findName x (f.names ++ _) = _
    rw [findName, List.find?_append]
    rfl

theorem resolve_unbound {x : String} {g : List Ctx} : ∀ {c : Ctx}, resolveUpvalue x (c :: g) = none → Site.lookup x (Env.place g) = none := by
  induction g with
  | nil => intro _ _; rfl
  | cons parent rest ih =>
    intro c h
    unfold resolveUpvalue at h
    rw [lookup_cons]
    cases hl : parent.scopes.local? x with
    | some u => rw [hl] at h; cases h
    | none =>
      rw [hl] at h
      simp only at h ⊢
      cases hr : resolveUpvalue x (parent :: rest) with
      | none => exact ih hr
      | some r =>
        obtain ⟨o, pr⟩ := r
        rw [hr] at h
        cases pr with
        | nil =>
          cases rest with
          | nil => cases hr
          | cons d rest =>
            obtain ⟨_, _, _, _, h, -⟩ := resolve_mutable hr
            cases h
        | cons p' r' => cases h

theorem bind_resolve {x : String} {f : Option Nat → M β} {s : CState} : (resolve x >>= f) s = match resolveUpvalue x s.stack with
    | none => f none s
    | some (i, st) => f (some i) { s with stack := st } := by
  show M.bind (resolve x) f s = _
  unfold M.bind resolve
  cases resolveUpvalue x s.stack <;> rfl

theorem wp_captured {x : String} (hl : v.site.lookupHere x = none) {g : Nat → UpvalueDescriptor → M Unit} {h : M Unit}
    {Q' : Unit → Nat → View → Prop}
    (hg : ∀ i d m, v.site.lookup x = some m → m.isMutable = d.isMutable → Wp n (g i d) v Q' B)
    (hh : v.site.lookup x = none → Wp n h v Q' B) :
    Wp n (resolve x >>= fun r => match r with
      | some i => getCtx >>= fun c => match c.upvalues[i]? with
        | none => M.fail (.panic "upvalue index")
        | some d => g i d
      | none => h) v Q' B := by
  intro s R hs
  obtain ⟨c, hc, -⟩ := hs.head
  cases hst : s.stack with
  | nil => rw [hst] at hc; cases hc
  | cons c' rest =>
    have hsite : v.site.lookup x = Site.lookup x (Env.place rest) := by
      have := hs.site
      rw [hst] at this
      rw [lookup_here, hl, ← this]
      rfl
    rw [bind_resolve]
    cases hr : resolveUpvalue x s.stack with
    | none =>
      rw [hst] at hr
      exact hh (hsite.trans (resolve_unbound hr)) s R hs
    | some r =>
      obtain ⟨i, g'⟩ := r
      have hs' := hs.resolve hr
      rw [hst] at hr
      obtain ⟨c1, r1, d, m, rfl, hd, hm, hmut⟩ := resolve_mutable hr
      dsimp only
      rw [bind_getCtx (s := { s with stack := c1 :: r1 }) rfl, hd]
      exact hg i d m (hsite.trans hm) hmut _ R hs'

theorem vis_assignOp {op : AssignOp} (h : op ≠ .assign) : Vis n op.emitOp v v B := by
  cases op <;> first | exact absurd rfl h | exact vis_emit

/-- The assignment to a captured mutable variable. -/
def assignCaptured (op : AssignOp) (i : Nat) (x : M Unit) : M Unit :=
  match op with
  | .assign => do x; emit1 .assignUpvalue i
  | op => do emit1 .loadUpvalue i; x; op.emitOp; emit1 .assignUpvalue i

theorem vis_assignIdent {op : AssignOp} {x : String} {a : Expr} (h : VisE a) : VisE (.assign op (.ident x) a) := fun n v => by
  rw [visit, afterExpr]
  have hx : ∀ n, Vis n (visit a) v { v with site := afterExpr a v.site } (Blame v.site (.assign op (.ident x) a)) :=
    fun n => h.sub .assignIdent
  unfold assignIdent
  refine wp_lookupb fun r m hm hr => ?_
  cases r with
  | some u =>
    have hl : v.site.lookup x = some u.toName := by rw [lookup_here, hr]; rfl
    show Wp _ (assignLocal x op u (visit a)) _ _ _
    unfold assignLocal
    cases hmut : u.isMutable with
    | false => exact wp_fail (.here (.immutable hl hmut))
    | true =>
      cases op with
      | assign => exact wp_then (hx _) fun m hm => vis_emit1
      | _ => exact wp_then vis_emit1 fun m hm => wp_then (hx _) fun m hm => wp_then (vis_assignOp (by simp)) fun m hm => vis_emit1
  | none =>
    refine wp_captured (g := fun i d => if !d.isMutable then M.fail (.cannotReassign x) else assignCaptured op i (visit a))
      (h := M.fail (.notDeclared x)) hr ?_ fun hn => wp_fail (.here (.unknown hn))
    intro i d nm hl hmut'
    cases hmut : d.isMutable with
    | false => exact wp_fail (.here (.immutable hl (hmut'.trans hmut)))
    | true =>
      cases op with
      | assign => exact wp_then (hx _) fun m hm => vis_emit1
      | _ => exact wp_then vis_emit1 fun m hm => wp_then (hx _) fun m hm => wp_then (vis_assignOp (by simp)) fun m hm => vis_emit1

theorem vis_assignField {op : AssignOp} {e a : Expr} {f : String} (he : VisE e) (ha : VisE a) : VisE (.assign op (.field e f) a) := fun n v => by
  rw [visit, afterExpr]
  unfold assignField
  refine wp_then (he.sub (.assignField .head)) fun m hm => ?_
  cases op with
  | assign => exact wp_then (ha.sub (.assignField (.tail .head))) fun m hm => vis_emitConst .constants
  | _ => exact wp_then vis_emit1 fun m hm => wp_then (vis_emitConst .constants) fun m hm => wp_then (ha.sub (.assignField (.tail .head))) fun m hm =>
      wp_then (vis_assignOp (by simp)) fun m hm => vis_emitConst .constants

theorem vis_assignIndex {op : AssignOp} {e i a : Expr} (he : VisE e) (hi : VisE i) (ha : VisE a) :
    VisE (.assign op (.index e i) a) := fun n v => by
  rw [visit, afterExpr]
  unfold assignIndex
  refine wp_then (he.sub (.assignIndex .head)) fun m hm => wp_then (hi.sub (.assignIndex (.tail .head))) fun m hm => ?_
  cases op with
  | assign => exact wp_then (ha.sub (.assignIndex (.tail (.tail .head)))) fun m hm => vis_emit
  | _ => exact wp_then vis_emit1 fun m hm => wp_then vis_emit1 fun m hm => wp_then vis_emit fun m hm =>
      wp_then (ha.sub (.assignIndex (.tail (.tail .head)))) fun m hm => wp_then (vis_assignOp (by simp)) fun m hm => vis_emit

/-! ## Loops -/

theorem vis_blockExpr {es : List Expr} {t : Option Expr} (hes : ∀ e ∈ es, VisE e) (ht : ∀ e ∈ t, VisE e) : VisE (.block es t) := fun n v => by
  rw [visit, afterExpr]
  exact vis_block fun n => vis_seq hes ht fun q e err hi h => h.inside (.block hi)

theorem wp_positionb {f : Nat → M β} {Q' : β → Nat → View → Prop} (hf : ∀ p m, n ≤ m → p ≤ m → Wp m (f p) v Q' B) :
    Wp n (position >>= f) v Q' B :=
  wp_bind wp_position fun p m _ hm e => e.2 ▸ hf p m hm e.1

theorem Blame.jump {p : Site} {e : Expr} (h : e.jumpsBack = true) : Blame p e (.panic "jump_back") := .here (.jumpBack h)

theorem vis_loop {es : List Expr} {t : Option Expr} (hes : ∀ e ∈ es, VisE e) (ht : ∀ e ∈ t, VisE e) : VisE (.loop (.block es t)) := fun n v => by
  rw [visit, afterExpr]
  refine wp_calls fun a l hv => ?_
  unfold visitLoop
  refine wp_positionb fun p m hm hp => wp_then (vis_pushScope (e := some p) fun _ h => by cases h; exact hp) fun m1 hm1 => ?_
  refine wp_then (vis_block fun n => vis_seq hes ht fun q e err hi h => h.inside (.loop hi)) fun m2 hm2 => ?_
  refine wp_then (vis_jumpBack (by omega) (.jump rfl)) fun m3 hm3 => ?_
  refine wp_popb (by show 0 :: v.calls = _; rw [hv]) fun sc m hm hh => wp_then (vis_patchAll hh) fun m hm => ?_
  rw [← hv]
  exact vis_emit

theorem vis_while {c : Expr} {es : List Expr} {t : Option Expr} (hc : VisE c) (hes : ∀ e ∈ es, VisE e) (ht : ∀ e ∈ t, VisE e) :
    VisE (.whileLoop c (.block es t)) := fun n v => by
  rw [visit, afterExpr]
  refine wp_calls fun a l hv => ?_
  unfold visitWhile
  refine wp_positionb fun p m hm hp => wp_then (vis_pushScope (e := some p) fun _ h => by cases h; exact hp) fun m1 hm1 => ?_
  refine wp_then (hc.sub .whileCond) fun m2 hm2 => wp_jumpb fun j m3 hm3 hj => ?_
  refine wp_then (vis_block fun n => vis_seq hes ht fun q e err hi h => h.inside (.whileBody hi)) fun m4 hm4 => ?_
  refine wp_then (vis_jumpBack (by omega) (.jump rfl)) fun m5 hm5 => wp_then (vis_patch (by omega)) fun m6 hm6 => ?_
  refine wp_popb (by show 0 :: v.calls = _; rw [hv]) fun sc m hm hh => wp_then (vis_patchAll hh) fun m hm => ?_
  rw [← hv]
  exact vis_emit

theorem vis_range {x : String} {op : BinaryOp} {inc : Bool} {a b body : Expr} (hop : op = .rangeInclusive ∨ op = .rangeExclusive)
    (ha : VisE a) (hb : VisE b) (hbody : VisE body) :
    Vis n (visitRangeLoop inc x (visit a) (visit b) (visit body)) v
      { v with site := (afterExpr body (((afterExpr a (afterExpr b v.site)).enter (some false)).declare x (.local false true))).leave }
      (Blame v.site (.forLoop x (.binary op a b) body)) := by
  refine wp_calls fun a' l hv => ?_
  unfold visitRangeLoop
  refine wp_then (hb.sub (.rangeBound hop .head)) fun m hm => wp_then (ha.sub (.rangeBound hop (.tail .head))) fun m hm => ?_
  refine wp_positionb fun p m1 hm1 hp => wp_then (vis_pushScope (e := none) fun _ h => nomatch h) fun m2 hm2 => ?_
  refine wp_bindv vis_addLocal fun slot m3 hm3 => wp_then vis_emit1 fun m4 hm4 => wp_then vis_emit1 fun m5 hm5 =>
    wp_then vis_emit fun m6 hm6 => wp_jumpb fun j m7 hm7 hj => ?_
  refine wp_then (hbody.sub (.rangeBody hop)) fun m8 hm8 => wp_then vis_emit fun m9 hm9 => wp_then vis_emit1 fun m10 hm10 =>
    wp_then vis_emit fun m11 hm11 => wp_then vis_emit fun m12 hm12 => ?_
  refine wp_popb (by show 0 :: v.calls = _; rw [hv]) fun sc m13 hm13 hh => wp_then vis_closeUpvalues fun m14 hm14 => ?_
  refine wp_then (vis_jumpBack (by omega) (.jump rfl)) fun m15 hm15 => wp_then (vis_patch (by omega)) fun m16 hm16 =>
    wp_then (vis_patchAll fun h hi => by have := hh h hi; omega) fun m17 hm17 => wp_then vis_emit fun m18 hm18 => ?_
  rw [← hv]
  exact vis_emit

theorem vis_for {x : String} {src body : Expr}
    (hns : ∀ a b, src ≠ .binary .rangeInclusive a b ∧ src ≠ .binary .rangeExclusive a b) (hs : VisE src) (hbody : VisE body) :
    VisE (.forLoop x src body) := fun n v => by
  have e1 : visit (.forLoop x src body) = visitFor x (visit src) (visit body) := by
    rw [visit]
    · exact fun a c h => (hns a c).1 h
    · exact fun a c h => (hns a c).2 h
  have e2 : afterExpr (.forLoop x src body) v.site =
      (afterExpr body (((afterExpr src v.site).enter (some false)).declare x (.local false true))).leave := by
    rw [afterExpr]
    · exact fun a c h => (hns a c).1 h
    · exact fun a c h => (hns a c).2 h
  rw [e1, e2]
  refine wp_calls fun a' l hv => ?_
  unfold visitFor
  refine wp_then (hs.sub (.forSource hns)) fun m hm => wp_then (vis_emitConst .constants) fun m hm => wp_then vis_emit1 fun m hm =>
    wp_then (vis_emitConst .constants) fun m hm => ?_
  refine wp_positionb fun p m1 hm1 hp => wp_then (vis_pushScope (e := none) fun _ h => nomatch h) fun m2 hm2 => ?_
  refine wp_bindv vis_addLocal fun slot m3 hm3 => wp_then vis_emit1 fun m4 hm4 => wp_then vis_emit1 fun m5 hm5 =>
    wp_then vis_emit1 fun m6 hm6 => wp_then (vis_emitConst .constants) fun m6' hm6' => wp_jumpb fun j m7 hm7 hj => ?_
  refine wp_then (vis_loadFieldToLocal .constants) fun m8 hm8 => wp_then vis_emit fun m9 hm9 =>
    wp_then (hbody.sub (.forBody hns)) fun m10 hm10 => ?_
  refine wp_popb (by show 0 :: v.calls = _; rw [hv]) fun sc m13 hm13 hh => wp_then vis_emit fun m13' hm13' =>
    wp_then vis_closeUpvalues fun m14 hm14 => ?_
  refine wp_then (vis_jumpBack (by omega) (.jump rfl)) fun m15 hm15 => wp_then (vis_patch (by omega)) fun m16 hm16 =>
    wp_then (vis_patchAll fun h hi => by have := hh h hi; omega) fun m17 hm17 => wp_then vis_emit fun m18 hm18 =>
    wp_then vis_emit fun m19 hm19 => ?_
  rw [← hv]
  exact vis_emit

theorem innerLoop_head {c : Ctx} {q : Site} (h : q.head? = some c.place) :
    q.innerLoop = (c.scopes.firstOfKind .loop).map (·.entryPoint.isSome) := by
  cases q with
  | nil => cases h
  | cons f q =>
    cases h
    exact innerLoop_place [c]

theorem modifyFirst_spec (k : ScopeKind) (f : ScopeContext → ScopeContext) (cs : List ScopeContext) :
    match ScopeStack.modifyFirstOfKind k f cs with
    | none => cs.find? (fun c => c.kind == k) = none
    | some cs' => ∃ pre c post, cs = pre ++ c :: post ∧ cs' = pre ++ f c :: post := by
  induction cs with
  | nil => rfl
  | cons c cs ih =>
    unfold ScopeStack.modifyFirstOfKind
    by_cases h : (c.kind == k) = true
    · rw [if_pos h]
      exact ⟨[], c, cs, rfl, rfl⟩
    · rw [if_neg h]
      cases hm : ScopeStack.modifyFirstOfKind k f cs with
      | none =>
        rw [hm] at ih
        show List.find? _ _ = none
        rw [List.find?_cons_of_neg (p := fun c : ScopeContext => c.kind == k) h]
        exact ih
      | some cs' =>
        rw [hm] at ih
        obtain ⟨pre, d, post, rfl, rfl⟩ := ih
        exact ⟨c :: pre, d, post, rfl, rfl⟩

theorem vis_addExit {p : Nat} (hp : p + 2 ≤ n) (hl : v.site.innerLoop ≠ none) :
    Vis n (getCtx >>= fun c => match c.scopes.addLoopExitPoint p with
      | none => M.fail .internal
      | some st => setCtx { c with scopes := st }) v v B := by
  refine wp_head fun s c rest hst hfine hsite hn hcalls htemps => ?_
  rw [bind_getCtx hst]
  have hf := hfine c (List.mem_cons_self ..)
  have hh : v.site.head? = some c.place := by rw [← hsite]; rfl
  have hspec := modifyFirst_spec .loop (fun sc : ScopeContext => { sc with exitPoints := sc.exitPoints ++ [p] }) c.scopes.stack
  unfold ScopeStack.addLoopExitPoint
  cases hm : ScopeStack.modifyFirstOfKind .loop (fun sc : ScopeContext => { sc with exitPoints := sc.exitPoints ++ [p] }) c.scopes.stack with
  | none =>
    rw [hm] at hspec
    refine absurd ?_ hl
    rw [innerLoop_head hh]
    unfold ScopeStack.firstOfKind
    rw [hspec]
    rfl
  | some st =>
    rw [hm] at hspec
    obtain ⟨pre, d, post, he, rfl⟩ := hspec
    simp only [Option.map_some]
    rw [setCtx_eq hst]
    have hmem : ∀ sc ∈ pre ++ { d with exitPoints := d.exitPoints ++ [p] } :: post, ∃ sc' ∈ c.scopes.stack,
        sc.callContext = sc'.callContext ∧ sc.entryPoint = sc'.entryPoint ∧ ∀ h ∈ sc.exitPoints, h ∈ sc'.exitPoints ∨ h = p := by
      intro sc hsc
      rw [he]
      rcases List.mem_append.1 hsc with h | h
      · exact ⟨sc, List.mem_append_left _ h, rfl, rfl, fun _ h => .inl h⟩
      rcases List.mem_cons.1 h with rfl | h
      · exact ⟨d, by simp, rfl, rfl, fun _ h => by simpa using h⟩
      · exact ⟨sc, by simp [h], rfl, rfl, fun _ h => .inl h⟩
    refine ⟨_, n, v, rfl, ⟨by simp, ?_, ?_, ?_⟩, ?_, Nat.le_refl _, hn, ?_, htemps, rfl⟩
    · intro sc hsc h hh
      obtain ⟨sc', h1, -, -, h4⟩ := hmem sc hsc
      rcases h4 h hh with h4 | rfl
      · exact hf.exits sc' h1 h h4
      · exact Nat.le_trans hp hn
    · intro sc hsc h hh
      obtain ⟨sc', h1, h2, -, -⟩ := hmem sc hsc
      exact hf.calls sc' h1 h (h2 ▸ hh)
    · intro sc hsc h hh
      obtain ⟨sc', h1, -, h3, -⟩ := hmem sc hsc
      exact hf.entries sc' h1 h (h3 ▸ hh)
    · rw [← hsite]
      show _ :: _ = _ :: _
      congr 1
      simp only [Ctx.place, he, List.map_append, List.map_cons]
      rfl
    · rw [← hcalls]
      simp only [Ctx.calls, he, List.map_append, List.map_cons]

theorem vis_break : VisE .break_ := fun n v => by
  rw [visit, afterExpr]
  unfold visitBreak
  refine wp_getb fun c m hm hc => ?_
  have hl := innerLoop_head hc
  by_cases h : c.scopes.inContextOf .loop = true
  · rw [if_pos h]
    refine wp_jumpb fun j m hm hj => vis_addExit hj ?_
    rw [hl]
    unfold ScopeStack.inContextOf at h
    cases hf : c.scopes.firstOfKind .loop with
    | none => rw [hf] at h; cases h
    | some sc => simp
  · rw [if_neg h]
    refine wp_fail (.here (.break_ ?_))
    rw [hl]
    unfold ScopeStack.inContextOf at h
    cases hf : c.scopes.firstOfKind .loop with
    | none => rfl
    | some sc => rw [hf] at h; exact absurd rfl h

theorem vis_continue : VisE .continue_ := fun n v => by
  rw [visit, afterExpr]
  unfold visitContinue
  refine wp_bind wp_getFine fun c m w hm h => ?_
  obtain ⟨rfl, hc, hfine, hlen⟩ := h
  have hl := innerLoop_head hc
  unfold ScopeStack.inContextOf ScopeStack.entryPoint
  cases hf : c.scopes.firstOfKind .loop with
  | none =>
    rw [hf] at hl
    exact wp_fail (.here (.continue_ hl))
  | some sc =>
    rw [hf] at hl
    cases he : sc.entryPoint with
    | none =>
      simp only [Option.isSome_some, if_true, Option.bind_some, he]
      refine wp_fail (.here (.continueFor ?_))
      rw [hl]
      simp [he]
    | some p =>
      simp only [Option.isSome_some, if_true, Option.bind_some, he]
      refine vis_jumpBack ?_ (.jump rfl)
      have : sc ∈ c.scopes.stack := List.mem_of_find?_eq_some hf
      exact Nat.le_trans (hfine.entries sc this p he) hlen

def visitResult : Option Expr → M Unit
  | some e => visit e
  | none => pure ()

theorem vis_return {r : Option Expr} (h : ∀ e ∈ r, VisE e) : VisE (.return_ r) := fun n v => by
  have tail : ∀ m, Vis m (do let n ← getTemporaries; dropTemporaries n; visitReturn) { v with site := afterOpt r v.site }
      { v with site := afterOpt r v.site } (Blame v.site (.return_ r)) := fun m =>
    wp_tempsb fun m hm => wp_then vis_drop fun m hm =>
      vis_visitReturn .constants fun k t hk ht => result_uses (grows_opt r v.site).kind rfl (by simp) hk ht
  have eq : visit (.return_ r) = visitReturnExpr r.isSome (visitResult r) := by
    cases r <;> rw [visit] <;> rfl
  rw [eq, afterExpr]
  unfold visitReturnExpr
  refine wp_getb fun c m hm hc => ?_
  have hk := kind_head hc
  have value : ∀ m, Vis m (if r.isSome = true then (visitResult r) else emit .pushUnit) v
      { v with site := afterOpt r v.site } (Blame v.site (.return_ r)) := by
    intro m
    cases r with
    | none => exact vis_emit
    | some e => exact (h e rfl).sub .return_
  have value' : ∀ m, Vis m (if r.isSome = true then (visitResult r) >>= fun _ =>
        (do let n ← getTemporaries; dropTemporaries n; visitReturn)
      else emit .pushUnit >>= fun _ => (do let n ← getTemporaries; dropTemporaries n; visitReturn)) v
      { v with site := afterOpt r v.site } (Blame v.site (.return_ r)) := by
    intro m
    have hv := value m
    cases r with
    | none => exact wp_then hv fun m _ => tail m
    | some e => exact wp_then hv fun m _ => tail m
  dsimp only
  split
  · exact value' _
  · exact value' _
  · rename_i hkc
    rw [hkc] at hk
    cases r with
    | some e => exact wp_failb (.here (.returnValue hk))
    | none =>
      have hs := lookupHere_head hc nameSelf
      simp only [Option.isSome_none, Bool.false_eq_true, if_false]
      cases hl : c.scopes.local? nameSelf with
      | none => rw [hl] at hs; exact wp_failb (.here (.returnSelf hk hs))
      | some u => exact wp_then vis_emit1 fun m _ => tail m
  · rename_i h1 h2 h3
    refine wp_failb (.here (.return_ ?_ ?_ ?_))
    · intro t ht; exact h1 t (Option.some.inj (hk.symm.trans ht))
    · intro t ht; exact h2 t (Option.some.inj (hk.symm.trans ht))
    · intro ht; exact h3 (Option.some.inj (hk.symm.trans ht))

end

/-! ## All expressions -/

theorem vis_aux (n : Nat) : ∀ e : Expr, sizeOf e < n → VisE e := by
  induction n with
  | zero => intro e h; omega
  | succ n ih =>
    have list : ∀ (es : List Expr), sizeOf es < n → ∀ e ∈ es, VisE e := fun es h e he =>
      ih e (Nat.lt_trans (List.sizeOf_lt_of_mem he) h)
    have opt : ∀ (t : Option Expr), sizeOf t < n → ∀ e ∈ t, VisE e := fun t h e he => by
      cases he
      exact ih e (by simp at h; omega)
    have body : ∀ b : Expr, sizeOf b < n → VisB b := fun b h => by
      cases b with
      | block es t => simp at h; exact ⟨list es (by omega), opt t (by omega)⟩
      | _ => exact ⟨(fun _ h => by cases h), (fun e he => by cases he; exact ih _ h)⟩
    intro e he
    cases e with
    | ident x =>
      intro n v
      rw [visit, afterExpr]
      exact vis_ident .constants fun m hm hr => .here (.notReady (by simp [Expr.uses]) fun _ => ⟨m, hm, hr⟩)
    | unit => intro n v; rw [visit, afterExpr]; exact vis_emit
    | null => intro n v; rw [visit, afterExpr]; exact vis_emit
    | bool b => intro n v; rw [visit, afterExpr]; exact vis_emit
    | int i => exact vis_int
    | float f => exact vis_float
    | str s => intro n v; rw [visit, afterExpr]; exact vis_pushConst .constants
    | anonFn args ret b => simp at he; exact vis_anonFn (body b (by omega))
    | object fs =>
      simp at he
      refine vis_object fun p hp => ih _ ?_
      have := List.sizeOf_lt_of_mem hp
      cases p
      simp at this ⊢
      omega
    | list es => simp at he; exact vis_list (list es (by omega))
    | assign op lhs rhs =>
      simp at he
      cases lhs with
      | ident x => exact vis_assignIdent (ih _ (by omega))
      | field a f => simp at he; exact vis_assignField (ih _ (by omega)) (ih _ (by omega))
      | index a i => simp at he; exact vis_assignIndex (ih _ (by omega)) (ih _ (by omega)) (ih _ (by omega))
      | _ => intro n v; rw [visit] <;> first | exact wp_fail (.here (.target rfl)) | simp
    | unary op a => simp at he; exact vis_unary (ih _ (by omega))
    | binary op a b => simp at he; exact vis_binary (ih _ (by omega)) (ih _ (by omega))
    | is a t => simp at he; exact vis_is (ih _ (by omega))
    | varDecl k m a t => simp at he; exact vis_varDecl (ih _ (by omega))
    | fnDecl name args ret b => simp at he; exact vis_fnDecl (body b (by omega))
    | opDecl op args ret b => simp at he; exact vis_opDecl (body b (by omega))
    | classDecl name base items =>
      simp at he
      refine vis_class (opt base (by omega)) fun e hm b hb => body b ?_
      have := List.sizeOf_lt_of_mem hm
      rcases hb with ⟨_, _, _, rfl⟩ | ⟨_, _, _, rfl⟩ <;> simp at this <;> omega
    | importDecl m items path => exact vis_import
    | exportDecl a => simp at he; exact vis_export (ih _ (by omega))
    | ifExpr a b c => simp at he; exact vis_if (ih _ (by omega)) (ih _ (by omega)) (opt c (by omega))
    | loop b =>
      simp at he
      cases b with
      | block es t => simp at he; exact vis_loop (list es (by omega)) (opt t (by omega))
      | _ => intro n v; rw [visit] <;> first | exact wp_fail (.here (.loopBody rfl)) | simp
    | whileLoop a b =>
      simp at he
      cases b with
      | block es t => simp at he; exact vis_while (ih _ (by omega)) (list es (by omega)) (opt t (by omega))
      | _ => intro n v; rw [visit] <;> first | exact wp_fail (.here (.whileBody rfl)) | simp
    | forLoop x src b =>
      simp at he
      by_cases hr : ∃ op a c, src = .binary op a c ∧ (op = .rangeInclusive ∨ op = .rangeExclusive)
      · obtain ⟨op, a, c, rfl, hop⟩ := hr
        simp at he
        intro n v
        rcases hop with rfl | rfl
        · rw [visit, afterExpr]; exact vis_range (.inl rfl) (ih _ (by omega)) (ih _ (by omega)) (ih _ (by omega))
        · rw [visit, afterExpr]; exact vis_range (.inr rfl) (ih _ (by omega)) (ih _ (by omega)) (ih _ (by omega))
      · exact vis_for (fun a c => ⟨fun h => hr ⟨_, a, c, h, .inl rfl⟩, fun h => hr ⟨_, a, c, h, .inr rfl⟩⟩)
          (ih _ (by omega)) (ih _ (by omega))
    | break_ => exact vis_break
    | continue_ => exact vis_continue
    | block es t => simp at he; exact vis_blockExpr (list es (by omega)) (opt t (by omega))
    | return_ r => simp at he; exact vis_return (opt r (by omega))
    | nullProp a => simp at he; exact vis_nullProp (ih _ (by omega))
    | errProp a => simp at he; exact vis_errProp (ih _ (by omega))
    | field a f => simp at he; exact vis_field (ih _ (by omega))
    | superAccess f c => exact vis_superAccess
    | call a es => simp at he; exact vis_call (ih _ (by omega)) (list es (by omega))
    | superCall es => simp at he; exact vis_superCall (list es (by omega))
    | index a i => simp at he; exact vis_index (ih _ (by omega)) (ih _ (by omega))

/-- Whatever is wrong with an expression is explained by one of its parts at its place. -/
theorem vis_expr (e : Expr) : VisE e := vis_aux (sizeOf e + 1) e (Nat.lt_succ_self _)

end Dice
