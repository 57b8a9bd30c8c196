import Verif.SimImport

/-!
# All code follows the evaluator

By induction over the generation of code, provided that calls and imports do.
-/

namespace Dice.Sim

open Src (SEnv State Out S Jump)

/-- Not inside a chain of accesses, or no chain of accesses leaves the expression. -/
def Ok (g : Env) (b : Bool) : Prop := g.callDepth = some 0 ∨ b = true

/-- The code of a piece of syntax follows the evaluator. -/
def Follows (w : World) (call : Src.Calls) (N : Nat) (g : Env) (nd : Node) (c : Code) (g' : Env) : Prop :=
  match nd with
  | .expr e => (Ok g (Src.closed e) → FollowsE w N g (Src.eval w call · N false e) c g') ∧
      (g.callDepth ≠ some 0 → Src.spine e = true → FollowsE w N g (Src.eval w call · N true e) c g')
  | .link e => g.callDepth ≠ some 0 → FollowsE w N g (Src.eval w call · N true e) c g'
  | .seq es t => g.callDepth = some 0 → FollowsE w N g (evalSeq w call · N es t) c g'
  | .els t => Ok g (Src.closedOpt t) → FollowsE w N g (Src.evalOpt w call · N t) c g'
  | .items es => Ok g (Src.closedAny es) → FollowsL w N g (Src.evalAll w call · N es) es.length c g'
  | .args es => FollowsL w N g (Src.evalAll w call · N es) es.length c g'
  | .fields fs => Ok g (Src.closedField fs) → FollowsF w N g (fun r o => Src.evalFields w call r N o fs) c g'
  | .block k es t => FollowsB w N g (evalBlock w call · N es t) k c g'
  | .base b => g.callDepth = some 0 → FollowsE w N g (evalBase w call · N b) c g'
  | .cls .. => True
  | .fnBody .. => True

section
variable {w : World} {N : Nat} {call : Src.Calls} {g g1 g' : Env} {c : Code} {e : Expr}

theorem follows_stuck (h : ∀ r ρ, Src.eval w call r N false e ρ = S.stuck) :
    FollowsE w N g (Src.eval w call · N false e) c g' := by
  intro C K W ts R σ m _
  dsimp only
  rw [h]
  exact .stuck

theorem depth_shape (h : g1.shape = g.shape) : g1.callDepth = g.callDepth := by rw [callDepth_shape, h, ← callDepth_shape]

theorem pushScope_depth {k : ScopeKind} {b : Bool} (h : g.pushScope k b = some g') : g'.callDepth = some 0 := by
  match g, h with
  | c :: rest, h => cases h; rfl

theorem Ok.child {b b' : Bool} (h : Ok g b) (hs : g1.shape = g.shape) (hb : b = true → b' = true) : Ok g1 b' :=
  h.imp (fun h => by rw [depth_shape hs]; exact h) hb

theorem inside_eval (he : e.isLink = false) (r : Src.Role) (ρ : SEnv) :
    Src.eval w call r N true e ρ = Src.eval w call r N false e ρ := by
  cases e with
  | assign op t rhs => cases t <;> simp only [Src.eval]
  | binary op a b => cases op <;> simp only [Src.eval]
  | forLoop x s b => cases s <;> simp only [Src.eval]
  | classDecl n b is => cases b <;> simp only [Src.eval]
  | varDecl p m e t => cases p <;> simp only [Src.eval]
  | loop b => cases b <;> simp only [Src.eval]
  | whileLoop a b => cases b <;> simp only [Src.eval]
  | return_ e => cases e <;> cases r <;> simp only [Src.eval]
  | importDecl m => cases m <;> simp only [Src.eval]
  | _ => first | (simp only [Src.eval]; done) | cases he

theorem spine_closed (he : e.isLink = false) (h : Src.spine e = true) : Src.closed e = true := by
  cases e <;> first | exact h | cases he

/-- An expression that is no access. -/
theorem wrap (he : e.isLink = false) (h : Ok g (Src.closed e) → FollowsE w N g (Src.eval w call · N false e) c g') :
    Follows w call N g (.expr e) c g' := by
  refine ⟨h, fun _ hs => ?_⟩
  intro C K W ts R σ m hh
  have := h (.inr (spine_closed he hs)) hh
  dsimp only at this ⊢
  rw [inside_eval he]
  exact this

end

/-- What leaves a part leaves the whole. -/
syntax "okc" : tactic
macro_rules
  | `(tactic| okc) => `(tactic| first
    | exact fun h => h
    | (intro h; simp only [Src.closed, Src.closedAny, Src.closedField, Src.closedOpt, Bool.and_eq_true] at h; simp [h]))

theorem gen_follows {w : World} {N : Nat} {call : Src.Calls} (hc : CallSpec w N call) (hload : LoadSpec w N call)
    {g g' : Env} {nd : Node} {c : Code} (h : Gen g nd c g') : Follows w call N g nd c g' := by
  induction h with
  | ident h => exact wrap rfl fun _ => case_ident h
  | unit => exact wrap rfl fun _ => case_unit
  | null => exact wrap rfl fun _ => case_null
  | bool => exact wrap rfl fun _ => case_bool
  | int => exact wrap rfl fun _ => case_int
  | float h => exact wrap rfl fun _ => case_float h
  | str => exact wrap rfl fun _ => case_str
  | anonFn hb hcode _ => exact wrap rfl fun _ => case_anonFn hb hcode
  | object _ ih => exact wrap rfl fun o => case_object (ih (o.child rfl (by okc)))
  | list _ ih => exact wrap rfl fun o => case_list (ih (o.child rfl (by okc)))
  | assignLocal hv _ h ih => exact wrap rfl fun o => case_assignLocal hv h (ih.1 (o.child rfl (by okc)))
  | updateLocal hv _ ho h ih => exact wrap rfl fun o => case_updateLocal hc hv ho h (ih.1 (o.child rfl (by okc)))
  | assignCaptured hv hr _ _ h ih =>
    exact wrap rfl fun o => case_assignCaptured hv hr h (ih.1 (o.child (resolve_shape hr) (by okc)))
  | updateCaptured hv hr _ _ ho h ih =>
    exact wrap rfl fun o => case_updateCaptured hc hv hr ho h (ih.1 (o.child (resolve_shape hr) (by okc)))
  | assignField h1 h2 ih1 ih2 =>
    exact wrap rfl fun o => case_assignField h1 h2 (ih1.1 (o.child rfl (by okc))) (ih2.1 (o.child h1.shape (by okc)))
  | updateField ho h1 h2 ih1 ih2 =>
    exact wrap rfl fun o => case_updateField hc ho h1 h2 (ih1.1 (o.child rfl (by okc))) (ih2.1 (o.child h1.shape (by okc)))
  | assignIndex h1 h2 h3 ih1 ih2 ih3 =>
    exact wrap rfl fun o => case_assignIndex h1 h2 h3 (ih1.1 (o.child rfl (by okc))) (ih2.1 (o.child h1.shape (by okc)))
      (ih3.1 (o.child (h2.shape.trans h1.shape) (by okc)))
  | updateIndex ho h1 h2 h3 ih1 ih2 ih3 =>
    exact wrap rfl fun o => case_updateIndex hc ho h1 h2 h3 (ih1.1 (o.child rfl (by okc))) (ih2.1 (o.child h1.shape (by okc)))
      (ih3.1 (o.child (h2.shape.trans h1.shape) (by okc)))
  | unary _ ih => exact wrap rfl fun o => case_unary (ih.1 (o.child rfl (by okc)))
  | and h1 h2 ih1 ih2 =>
    exact wrap rfl fun o => case_and h1 h2 (ih1.1 (o.child rfl (by okc))) (ih2.1 (o.child h1.shape (by okc)))
  | or h1 h2 ih1 ih2 =>
    exact wrap rfl fun o => case_or h1 h2 (ih1.1 (o.child rfl (by okc))) (ih2.1 (o.child h1.shape (by okc)))
  | pipeline h1 h2 ih1 ih2 =>
    exact wrap rfl fun o => case_pipeline hc h1 h2 (ih1.1 (o.child rfl (by okc))) (ih2.1 (o.child h1.shape (by okc)))
  | coalesce h1 h2 ih1 ih2 =>
    exact wrap rfl fun o => case_coalesce h1 h2 (ih1.1 (o.child rfl (by okc))) (ih2.1 (o.child h1.shape (by okc)))
  | binary ho h1 h2 ih1 ih2 =>
    exact wrap rfl fun o => case_binary hc ho h1 h2 (ih1.1 (o.child rfl (by okc))) (ih2.1 (o.child h1.shape (by okc)))
  | «is» hn h ht ih => exact wrap rfl fun o => case_is hn h ht (ih.1 (o.child rfl (by okc)))
  | isNullable hn h1 h2 ht ih1 ih2 =>
    exact wrap rfl fun o => case_isNullable hn h1 h2 ht (ih1.1 (o.child rfl (by okc))) (ih2.1 (o.child h1.shape (by okc)))
  | varDecl h hl ht ih => exact wrap rfl fun o => case_varDecl h hl ht (ih.1 (o.child rfl (by okc)))
  | varDecls h hl ih => exact wrap rfl fun o => case_varDecls h hl (ih.1 (o.child rfl (by okc)))
  | fnDecl _ hb hcode hv _ _ => exact wrap rfl fun _ => case_fnDecl hb hcode hv
  | opDecl _ hb hcode _ => exact wrap rfl fun _ => case_opDecl hb hcode
  | classDecl h0 hb hsup hv _ hg hi hp ih1 _ =>
    exact wrap rfl fun _ => case_classDecl h0 hb hsup hv hg hi hp (ih1 (pushScope_depth h0))
  | importItems hl => exact wrap rfl fun _ => case_importItems hload hl
  | importModule hl hm => exact wrap rfl fun _ => case_importModule hload hl hm
  | exportDecl _ _ _ hv h hn ih => exact wrap rfl fun o => case_exportDecl hv h hn (ih.1 (o.child rfl (by okc)))
  | ifExpr h1 h2 h3 ih1 ih2 ih3 =>
    exact wrap rfl fun o => case_ifExpr h1 h2 h3 (ih1.1 (o.child rfl (by okc))) (ih2.1 (o.child h1.shape (by okc)))
      (ih3 (o.child (h2.shape.trans h1.shape) (by okc)))
  | loop h0 h hp ih => exact wrap rfl fun _ => case_loop h0 h hp ih
  | whileLoop h0 h1 h2 hp ih1 ih2 =>
    exact wrap rfl fun _ => case_whileLoop h0 h1 h2 hp (ih1.1 (.inl (pushScope_depth h0))) ih2
  | rangeLoop hop h1 h2 h0 hl h3 hp ih1 ih2 ih3 =>
    exact wrap rfl fun o => case_rangeLoop hc hop h1 h2 h0 hl h3 hp (ih1.1 (o.child rfl (by okc))) (ih2.1 (o.child h1.shape (by okc)))
      (ih3.1 (.inl ((depth_shape (addLocal_shape hl)).trans (pushScope_depth h0))))
  | forLoop hns h1 h0 hl h2 hp ih1 ih2 =>
    exact wrap rfl fun o => case_forLoop hc hns h1 h0 hl h2 hp (ih1.1 (o.child rfl (by okc)))
      (ih2.1 (.inl ((depth_shape (addLocal_shape hl)).trans (pushScope_depth h0))))
  | break_ => exact wrap rfl fun _ => case_break
  | continue_ => exact wrap rfl fun _ => case_continue
  | blockExpr h ih => exact wrap rfl fun _ => case_blockExpr h ih
  | returnValue _ _ h hr ih => exact wrap rfl fun o => case_returnValue h hr (ih.1 (o.child rfl (by okc)))
  | returnUnit hk hf hr => exact wrap rfl fun _ => case_returnUnit hk hf hr
  | returnSelf hk hv hr => exact wrap rfl fun _ => case_returnSelf hk hv hr
  | chain he hd h0 h hd' h1 ih =>
    have e1 := (setCallDepth_shape h0).2
    rw [callDepth_shape, h.shape, ← callDepth_shape, e1] at hd'
    cases hd'
    have hne : _ ≠ some 0 := fun h : Env.callDepth _ = some 0 => by rw [e1] at h; simp at h
    refine ⟨fun o => case_chain he h0 h h1 (o.imp (fun o => ?_) id) (ih hne), fun o _ => case_inner h0 h h1 (fun hz => ?_) (ih hne)⟩
    · rw [hd] at o; simpa using o
    · rw [hd, hz] at o; exact o rfl
  | nullProp _ ih => exact fun o => case_nullProp (ih.2 o)
  | errProp _ _ h hr ih => exact fun o => case_errProp h hr (ih.2 o)
  | superAccess _ _ h1 h2 => exact fun _ => case_superAccess h1 h2
  | superCall hv h hi ih => exact fun _ => case_superCall hc hv h hi ih
  | field _ ih => exact fun o => case_field (ih.2 o)
  | call h1 h2 hg ih1 ih2 => exact fun o => case_call hc h1 h2 hg (ih1.2 o) ih2
  | index h1 _ h0 h2 h3 hg ih1 ih2 =>
    subst hg
    exact fun o => case_index h1 h0 h2 h3 (ih1.2 o)
      (ih2.1 (.inl ((depth_shape (setTemps_shape _ _)).trans (setCallDepth_shape h0).2)))
  | seqNil _ ih => exact fun o => case_seqNil (ih (.inl o))
  | seqCons h1 h2 ih1 ih2 => exact fun o => case_seqCons h1 h2 (ih1.1 (.inl o)) (ih2 ((depth_shape h1.shape).trans o))
  | elsSome _ ih => exact fun o => case_els (ih.1 o)
  | elsNone => exact fun _ => case_elsNone
  | itemsNil => exact fun _ => case_itemsNil
  | itemsCons h1 h2 ih1 ih2 =>
    exact fun o => case_itemsCons h1 h2 (ih1.1 (o.child rfl (by okc))) (ih2 (o.child h1.shape (by okc)))
  | argsNil => exact case_itemsNil
  | argsCons _ h0 h1 h2 h3 ih1 ih2 =>
    exact case_argsCons h0 h1 h2 h3 (ih1.1 (.inl ((depth_shape (setTemps_shape _ _)).trans (setCallDepth_shape h0).2))) ih2
  | fieldsNil => exact fun _ => case_fieldsNil
  | fieldsCons h1 h2 ih1 ih2 =>
    exact fun o => case_fieldsCons h1 h2 (ih1.1 (o.child rfl (by okc))) (ih2 (o.child h1.shape (by okc)))
  | baseSome _ ih => exact fun o => case_baseSome (ih.1 (.inl o))
  | baseNone h => exact fun _ => case_baseNone h
  | clsNil | clsFn | clsOp | fnBody => trivial
  | block h0 hs h hp ih =>
    exact case_block h0 hs h hp (ih ((depth_shape (scanDecls_shape hs)).trans (pushScope_depth h0)))

end Dice.Sim
