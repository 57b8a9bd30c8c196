import Verif.ParseSound
import Verif.LexProps
import Verif.SlotGen

/-!
# The names in a program

Names in the tree of a source text are identifiers of the text, or among the few that the parser and the compiler put
there themselves.
-/

namespace Dice

open Grammar

/-- The part of the tree does not use the name. -/
def Item.Avoids (x : String) : Item → Prop
  | .expr e _ _ | .ifExpr e _ | .block e | .decl _ e _ | .stmt e _ => ∀ deep, avoids x deep e = true
  | .items _ es | .members es | .seq es _ => ∀ deep, avoidsAll x deep es = true
  | .fields fs => ∀ deep, avoidsFields x deep fs = true

/-- The names that the parser and the compiler use without being told. -/
def impliedNames : List String := ["#result", "Result", nameAny, nameSuper, nameSelf]

section
variable {x : String}

theorem otherName_of {y : String} (h : y ≠ x) (deep : Bool) : otherName x deep y = true := by
  simp [otherName, h]

theorem Grammar.Ann.avoids {a : TypeAnn} {us : List Token} (h : Ann a us) (ht : ∀ t ∈ us, t.kind = .identifier → t.text ≠ x) (deep : Bool) :
    otherName x deep a.name = true := by
  cases h with
  | plain n hk => exact otherName_of (ht n (by simp) hk) deep
  | nullable n q hk => exact otherName_of (ht n (by simp) hk) deep

theorem Grammar.Params.avoids {ps : List FnArg} {us : List Token} (h : Params ps us) (ht : ∀ t ∈ us, t.kind = .identifier → t.text ≠ x) :
    (ps.all fun a => a.type_.all fun t => otherName x true t.name) = true := by
  have one : ∀ {a : FnArg} {us : List Token}, Param a us → (∀ t ∈ us, t.kind = .identifier → t.text ≠ x) →
      (a.type_.all fun t => otherName x true t.name) = true := by
    intro a us h ht
    cases h with
    | untyped => rfl
    | typed n c a us _ _ ha => exact ha.avoids (fun t hm => ht t (by simp [hm])) true
  induction h with
  | nil => rfl
  | last a us h => simp only [List.all_cons, List.all_nil, Bool.and_true]; exact one h ht
  | cons a as c us vs h _ _ ih =>
    simp only [List.all_cons, Bool.and_eq_true]
    exact ⟨one h fun t hm => ht t (by simp [hm]), ih fun t hm => ht t (by simp [hm])⟩

theorem Grammar.Ret.avoids {r : Option TypeAnn} {us : List Token} (h : Ret r us) (ht : ∀ t ∈ us, t.kind = .identifier → t.text ≠ x) :
    (r.all fun t => otherName x true t.name) = true := by
  cases h with
  | none => rfl
  | some t a us _ ha => exact ha.avoids (fun t hm => ht t (by simp [hm])) true

theorem avoidsAll_iff {deep : Bool} {es : List Expr} : avoidsAll x deep es = true ↔ ∀ e ∈ es, avoids x deep e = true := by
  induction es with
  | nil => simp [avoidsAll]
  | cons e es ih => simp [avoidsAll, ih]

theorem blockOf_avoids {deep : Bool} {es : List Expr} (h : avoidsAll x deep es = true) : avoids x deep (blockOf es) = true := by
  rw [avoidsAll_iff] at h
  unfold blockOf
  simp only [avoids, Bool.and_eq_true, avoidsAll_iff]
  refine ⟨fun e he => h e (List.dropLast_subset _ he), ?_⟩
  cases hl : es.getLast? with
  | none => rfl
  | some e => exact h e (List.mem_of_getLast? hl)

/-- The tree of a source text uses no names but those in the text and the implied ones. -/
theorem Grammar.Writes.avoids {i : Item} {us : List Token} (h : Writes i us) (hx : x ∉ impliedNames)
    (ht : ∀ t ∈ us, t.kind = .identifier → t.text ≠ x) : Item.Avoids x i := by
  have hx : "#result" ≠ x ∧ "Result" ≠ x ∧ nameAny ≠ x ∧ nameSuper ≠ x ∧ nameSelf ≠ x := by
    simp only [impliedNames, List.mem_cons, List.not_mem_nil, or_false, not_or] at hx
    exact ⟨Ne.symm hx.1, Ne.symm hx.2.1, Ne.symm hx.2.2.1, Ne.symm hx.2.2.2.1, Ne.symm hx.2.2.2.2⟩
  obtain ⟨hx1, hx2, hx3, hx4, hx5⟩ := hx
  induction h
  all_goals simp only [List.mem_append, List.mem_cons, List.not_mem_nil, or_false, or_imp, forall_and, forall_eq, Item.Avoids] at *
  all_goals try (simp_all [Dice.avoids, avoidsAll, avoidsFields, avoidsOpt, otherName, avoidsTypes, Grammar.orElse, blockOf_avoids]; done)
  case lit hl => intro deep; cases hl <;> rfl
  case anonFn hp _ _ ih =>
    intro deep
    simp only [Dice.avoids, avoidsTypes, Bool.and_eq_true]
    exact ⟨⟨hp.avoids ht.1.2, rfl⟩, ih ht.2.2 true⟩
  case fnDecl hp _ hr _ ih =>
    intro deep
    simp only [Dice.avoids, avoidsTypes, Bool.and_eq_true]
    exact ⟨⟨hp.avoids ht.1.1.2.2.2, hr.avoids ht.1.2.2⟩, ih ht.2 true⟩
  case opDecl hp hr _ ih =>
    intro deep
    simp only [Dice.avoids, avoidsTypes, Bool.and_eq_true]
    exact ⟨⟨hp.avoids ht.1.1.2.2.2, hr.avoids ht.1.2.2⟩, ih ht.2 true⟩

theorem ident_patterns : ∀ q ∈ patterns, q.2 = .tok .identifier → q.1 = .ident := by decide +kernel

/-- Identifiers begin with a letter or an underscore, and go on with these and digits. -/
theorem identifier_words {pos : Nat} {cs : List Char} {ls : List Lexeme} (h : Tiled pos cs ls) : ∀ l ∈ ls, ∀ t, l.item = .ok t →
    t.kind = .identifier → Pat.ident.Matches t.text.toList := by
  induction h with
  | done => simp
  | @item pos g w r l ls _ _ _ _ hf ht _ ih =>
    intro l' hl' t he hk
    rcases List.mem_cons.1 hl' with rfl | hl'
    · rw [ht t he, String.toList_ofList]
      rw [he] at hf
      replace hf : Found w r (some (.ok t.kind)) := hf
      rw [hk] at hf
      cases hf with
      | @plain _ _ p _ hb =>
        obtain ⟨hm, -, front, back, hps, -⟩ := hb
        have := ident_patterns (p, .tok .identifier) (by rw [hps]; simp) rfl
        have hp : p = .ident := this
        rw [← hp]
        exact hm
    · exact ih l' hl' t he hk

/-- **C39.**  A source text is parsed into a block that does not use a name that is no identifier, unless it is one of the
five that the parser and the compiler imply. -/
theorem parsed_names {source : String} {e : Expr} (h : Parser.parseSource source = .ok e) (hx : x ∉ impliedNames)
    (hw : ¬ Pat.ident.Matches x.toList) : ∃ es t, e = .block es t ∧ ∀ deep, avoids x deep e = true := by
  obtain ⟨es, us, rest, f, t, h1, h2, -, -, -, rfl⟩ := Parser.parse_sound h
  refine ⟨_, _, rfl, fun deep => blockOf_avoids (h2.avoids hx (fun u hu hk hux => ?_) deep)⟩
  have hm : Except.ok u ∈ (tokenize source.toList).map (·.item) := by
    rw [h1]
    exact List.mem_append_left _ (List.mem_map_of_mem hu)
  obtain ⟨l, hl, he⟩ := List.mem_map.1 hm
  exact hw (hux ▸ identifier_words (tokens_tile_source _) l hl u he hk)

end

example : nameExport ∉ impliedNames ∧ ¬ Pat.ident.Matches nameExport.toList := by
  refine ⟨by decide +kernel, ?_⟩
  rintro ⟨c, cs, h, hc, -⟩
  rw [show nameExport.toList = '#' :: "export".toList by decide +kernel] at h
  cases h
  revert hc
  decide +kernel

end Dice
