import Verif.Static

/-!
# Places only grow

Passing an expression, a place gains names in its innermost block, and names change their states; nothing else changes.
-/

namespace Dice

/-- A block without the states of its names. -/
def BlockSite.sig (b : BlockSite) : Nat × Option Bool × List String := (b.depth, b.loop, b.names.map (·.name))

inductive BlocksGrow : List BlockSite → List BlockSite → Prop where
  | nil : BlocksGrow [] []
  | cons {b b' bs bs' new} (hd : b'.depth = b.depth) (hl : b'.loop = b.loop)
      (hn : b'.names.map (·.name) = new ++ b.names.map (·.name)) (ht : bs'.map BlockSite.sig = bs.map BlockSite.sig) :
      BlocksGrow (b :: bs) (b' :: bs')

inductive Grows : Site → Site → Prop where
  | nil : Grows [] []
  | cons {f f' p} (hk : f'.kind = f.kind) (hb : BlocksGrow f.blocks f'.blocks) : Grows (f :: p) (f' :: p)

theorem BlocksGrow.refl : (bs : List BlockSite) → BlocksGrow bs bs
  | [] => .nil
  | _ :: _ => .cons (new := []) rfl rfl rfl rfl

theorem BlocksGrow.trans {a b c : List BlockSite} (h1 : BlocksGrow a b) (h2 : BlocksGrow b c) : BlocksGrow a c := by
  cases h1 with
  | nil => exact h2
  | cons hd hl hn ht =>
    cases h2 with
    | cons hd' hl' hn' ht' =>
      exact .cons (hd'.trans hd) (hl'.trans hl) (by rw [hn', hn, List.append_assoc]) (ht'.trans ht)

theorem Grows.refl : (p : Site) → Grows p p
  | [] => .nil
  | _ :: _ => .cons rfl (.refl _)

theorem Grows.trans {a b c : Site} (h1 : Grows a b) (h2 : Grows b c) : Grows a c := by
  cases h1 with
  | nil => exact h2
  | cons hk hb =>
    cases h2 with
    | cons hk' hb' => exact .cons (hk'.trans hk) (hb.trans hb')

theorem grows_declare (x : String) (st : VarState) (p : Site) : Grows p (p.declare x st) := by
  cases p with
  | nil => exact .nil
  | cons f p =>
    obtain ⟨k, bs⟩ := f
    cases bs with
    | nil => exact .cons rfl .nil
    | cons b bs => exact .cons rfl (.cons (new := [x]) rfl rfl rfl rfl)

theorem grows_declareAll (xs : List String) : (p : Site) → Grows p (p.declareAll xs) := by
  induction xs with
  | nil => exact .refl
  | cons x xs ih => exact fun p => (grows_declare x _ p).trans (ih _)

theorem markNames_names (x : String) (st : VarState) (ns : List Name) :
    (Site.markNames x st ns).map (·.name) = ns.map (·.name) := by
  induction ns with
  | nil => rfl
  | cons n ns ih =>
    simp only [Site.markNames]
    split
    · rfl
    · simp only [List.map_cons, ih]

theorem markBlocks_sigs (x : String) (st : VarState) (bs : List BlockSite) :
    (Site.markBlocks x st bs).map BlockSite.sig = bs.map BlockSite.sig := by
  induction bs with
  | nil => rfl
  | cons b bs ih =>
    simp only [Site.markBlocks]
    split
    · simp [BlockSite.sig, markNames_names]
    · simp only [List.map_cons, ih]

theorem BlocksGrow.of_sigs {bs bs' : List BlockSite} (h : bs'.map BlockSite.sig = bs.map BlockSite.sig) : BlocksGrow bs bs' := by
  cases bs with
  | nil =>
    cases bs' with
    | nil => exact .nil
    | cons => cases h
  | cons b bs =>
    cases bs' with
    | nil => cases h
    | cons b' bs' =>
      simp only [List.map_cons, List.cons.injEq, BlockSite.sig, Prod.mk.injEq] at h
      exact .cons (new := []) h.1.1 h.1.2.1 h.1.2.2 h.2

theorem grows_mark (x : String) (st : VarState) (p : Site) : Grows p (p.mark x st) := by
  cases p with
  | nil => exact .nil
  | cons f p => exact .cons rfl (.of_sigs (markBlocks_sigs ..))

/-- A block that was entered and left. -/
theorem Grows.leave {p q : Site} {l : Option Bool} (h : Grows (p.enter l) q) : Grows p q.leave := by
  cases p with
  | nil => cases h; exact .nil
  | cons f p =>
    cases h with
    | @cons _ f' _ hk hb =>
      obtain ⟨k', bs'⟩ := f'
      cases hb with
      | cons hd hl hn ht => exact .cons hk (.of_sigs ht)

theorem grows_hoistOne (e : Expr) (p : Site) : Grows p (hoistOne e p) := by
  match e with
  | .fnDecl _ _ _ _ => rw [hoistOne]; exact grows_declare ..
  | .classDecl _ _ _ => rw [hoistOne]; exact grows_declare ..
  | .exportDecl e => rw [hoistOne]; exact grows_hoistOne e p
  | .ident _ | .unit | .null | .bool _ | .int _ | .float _ | .str _ | .anonFn _ _ _ | .object _ | .list _
  | .assign _ _ _ | .unary _ _ | .binary _ _ _ | .is _ _ | .varDecl _ _ _ _ | .opDecl _ _ _ _ | .importDecl _ _ _
  | .ifExpr _ _ _ | .loop _ | .whileLoop _ _ | .forLoop _ _ _ | .break_ | .continue_ | .block _ _ | .return_ _
  | .nullProp _ | .errProp _ | .field _ _ | .superAccess _ _ | .call _ _ | .superCall _ | .index _ _ => exact .refl _

theorem grows_hoist (es : List Expr) : (p : Site) → Grows p (hoist es p) := by
  induction es with
  | nil => exact .refl
  | cons e es ih => exact fun p => (grows_hoistOne e p).trans (ih _)

theorem grows_params (k : FnKind) (args : List FnArg) (p : Site) : Grows p (declareParams k args p) := by
  unfold declareParams
  cases k with
  | function => exact (grows_declare ..).trans (grows_declareAll ..)
  | staticMethod => exact (grows_declare ..).trans (grows_declareAll ..)
  | _ => exact grows_declareAll ..

mutual

theorem grows_expr : (e : Expr) → (p : Site) → Grows p (afterExpr e p)
  | .ident _, p | .unit, p | .null, p | .bool _, p | .int _, p | .float _, p | .str _, p | .anonFn _ _ _, p
  | .opDecl _ _ _ _, p | .break_, p | .continue_, p | .superAccess _ _, p => .refl p
  | .object fs, p => grows_fields fs p
  | .list es, p => grows_all es p
  | .assign _ t rhs, p => by
    cases t with
    | ident => exact grows_expr rhs p
    | field e f => exact (grows_expr e p).trans (grows_expr rhs _)
    | index e i => exact ((grows_expr e p).trans (grows_expr i _)).trans (grows_expr rhs _)
    | _ => exact .refl p
  | .unary _ e, p => grows_expr e p
  | .binary op a b, p => by
    cases op with
    | pipeline => exact (grows_expr b p).trans (grows_expr a _)
    | _ => exact (grows_expr a p).trans (grows_expr b _)
  | .is e t, p => by
    rw [afterExpr]
    split
    · exact (grows_expr e p).trans (grows_expr e _)
    · exact grows_expr e p
  | .varDecl (.singular x) m e _, p => (grows_expr e p).trans (grows_declare ..)
  | .varDecl (.destructured xs) _ e _, p => (grows_expr e p).trans (grows_declareAll ..)
  | .fnDecl _ _ _ _, p => grows_mark ..
  | .classDecl name base _, p => by
    rw [afterExpr]
    refine Grows.leave (l := none) ?_
    have h : Grows (p.enter none) ((afterOpt base (p.enter none)).declare nameSuper (.local true true)) :=
      (grows_opt base _).trans (grows_declare ..)
    split
    · exact h.trans (grows_mark ..)
    · exact h
  | .importDecl m xs _, p => (grows_declareAll ..).trans (grows_declareAll ..)
  | .exportDecl e, p => grows_expr e p
  | .ifExpr c t e, p => ((grows_expr c p).trans (grows_expr t _)).trans (grows_opt e _)
  | .loop b, p => by
    cases b with
    | block es t =>
      exact Grows.leave (Grows.leave (((grows_hoist ..).trans (grows_all es _)).trans (grows_opt t _)))
    | _ => exact .refl p
  | .whileLoop c b, p => by
    cases b with
    | block es t =>
      exact Grows.leave ((grows_expr c _).trans
        (Grows.leave (((grows_hoist ..).trans (grows_all es _)).trans (grows_opt t _))))
    | _ => exact .refl p
  | .forLoop x source body, p => by
    have other : Grows p ((afterExpr body (((afterExpr source p).enter (some false)).declare x (.local false true))).leave) :=
      (grows_expr source p).trans (Grows.leave ((grows_declare ..).trans (grows_expr body _)))
    cases source with
    | binary op a b =>
      cases op with
      | rangeInclusive =>
        exact ((grows_expr b p).trans (grows_expr a _)).trans (Grows.leave ((grows_declare ..).trans (grows_expr body _)))
      | rangeExclusive =>
        exact ((grows_expr b p).trans (grows_expr a _)).trans (Grows.leave ((grows_declare ..).trans (grows_expr body _)))
      | _ => exact other
    | _ => exact other
  | .block es t, p => Grows.leave (((grows_hoist ..).trans (grows_all es _)).trans (grows_opt t _))
  | .return_ r, p => grows_opt r p
  | .nullProp e, p => grows_expr e p
  | .errProp e, p => grows_expr e p
  | .field e _, p => grows_expr e p
  | .call e args, p => (grows_expr e p).trans (grows_all args _)
  | .superCall args, p => grows_all args p
  | .index e i, p => (grows_expr e p).trans (grows_expr i _)

theorem grows_all : (es : List Expr) → (p : Site) → Grows p (afterAll es p)
  | [], p => .refl p
  | e :: es, p => (grows_expr e p).trans (grows_all es _)

theorem grows_opt : (e : Option Expr) → (p : Site) → Grows p (afterOpt e p)
  | none, p => .refl p
  | some e, p => grows_expr e p

theorem grows_fields : (fs : List (String × Expr)) → (p : Site) → Grows p (afterFields fs p)
  | [], p => .refl p
  | (_, e) :: fs, p => (grows_expr e p).trans (grows_fields fs _)

end

/-! ## Consequences -/

theorem Grows.tail {p q : Site} (h : Grows p q) : q.tail = p.tail := by cases h <;> rfl

theorem Grows.kind {p q : Site} (h : Grows p q) : q.kind = p.kind := by
  cases h with
  | nil => rfl
  | cons hk => exact congrArg some hk

theorem Grows.depth {p q : Site} (h : Grows p q) : q.depth = p.depth := by
  cases h with
  | nil => rfl
  | @cons f f' _ hk hb =>
    obtain ⟨k, bs⟩ := f
    obtain ⟨k', bs'⟩ := f'
    cases hb with
    | nil => rfl
    | cons hd => exact hd

theorem innerLoop_sigs {bs bs' : List BlockSite} (h : bs'.map BlockSite.sig = bs.map BlockSite.sig) :
    bs'.findSome? (·.loop) = bs.findSome? (·.loop) := by
  have e : ∀ l : List BlockSite, l.findSome? (·.loop) = (l.map BlockSite.sig).findSome? (·.2.1) := by
    intro l
    rw [List.findSome?_map]
    rfl
  rw [e, e, h]

theorem Grows.innerLoop {p q : Site} (h : Grows p q) : q.innerLoop = p.innerLoop := by
  cases h with
  | nil => rfl
  | @cons f f' _ hk hb =>
    obtain ⟨k, bs⟩ := f
    obtain ⟨k', bs'⟩ := f'
    cases hb with
    | nil => rfl
    | cons hd hl hn ht =>
      show List.findSome? _ (_ :: _) = List.findSome? _ (_ :: _)
      rw [List.findSome?_cons, List.findSome?_cons, hl, innerLoop_sigs ht]

/-- The visible names. -/
def FnSite.strings (f : FnSite) : List String := f.names.map (·.name)

theorem strings_sigs (f : FnSite) : f.strings = (f.blocks.map BlockSite.sig).flatMap (·.2.2) := by
  simp [FnSite.strings, FnSite.names, List.map_flatMap, List.flatMap_map, BlockSite.sig]

theorem lookupHere_ne {f : FnSite} {p : Site} {x : String} : Site.lookupHere x (f :: p) ≠ none ↔ x ∈ f.strings := by
  show findName x f.names ≠ none ↔ _
  unfold findName FnSite.strings
  rw [Ne, List.find?_eq_none]
  simp

theorem Grows.visible {p q : Site} (h : Grows p q) {x : String} (hx : p.lookupHere x ≠ none) : q.lookupHere x ≠ none := by
  cases h with
  | nil => exact hx
  | @cons f f' _ hk hb =>
    rw [lookupHere_ne, strings_sigs] at hx ⊢
    obtain ⟨k, bs⟩ := f
    obtain ⟨k', bs'⟩ := f'
    cases hb with
    | nil => exact hx
    | cons hd hl hn ht =>
      simp only [List.map_cons, List.flatMap_cons, List.mem_append] at hx ⊢
      rw [ht]
      rcases hx with hx | hx
      · refine .inl ?_
        show x ∈ List.map _ _
        rw [hn]
        exact List.mem_append_right _ hx
      · exact .inr hx

theorem enter_visible {p : Site} {x : String} {l : Option Bool} (hx : p.lookupHere x ≠ none) :
    (p.enter l).lookupHere x ≠ none := by
  cases p with
  | nil => exact hx
  | cons f p =>
    rw [Site.enter, lookupHere_ne, strings_sigs] at *
    simp only [List.map_cons, List.flatMap_cons, List.mem_append]
    exact .inr hx

end Dice
