import Verif.ConsumeProps
import Verif.Findings

/-!
# Further programs on which the code does not do what the property says

Source texts that are long, or whose parsing is the point.
-/

namespace Dice.Findings

open Grammar

/-! ## C45: counts above 255 are truncated -/

/-- The token `1`. -/
def one : Token := ⟨.integer, "1"⟩

theorem one_writes : Writes (.expr (.int 1) closedLevel any) [one] :=
  .lit one _ (.int one 1 rfl (.one '1' (by decide) (by decide)) (by decide))

/-- A list literal with 256 elements. -/
def longList : Tree := .list 256 fun _ => .leaf [one] (.int 1)

theorem integer_spelled {u : Token} (h : u ∈ [one, ⟨.integer, "0"⟩]) : Spelled u := by
  simp only [List.mem_cons, List.not_mem_nil, or_false] at h
  rcases h with rfl | rfl <;> exact .integer _ (by decide) (by decide)

theorem longList_named : longList.Named := fun _ _ hu =>
  integer_spelled (by cases List.mem_singleton.1 hu; exact List.mem_cons_self)

/-- A list literal with 256 elements is compiled to an empty list. -/
theorem list_literal_truncated : Panics true longList.text ∧
    Gives false (Tree.index longList (.leaf [⟨.integer, "0"⟩] (.int 0))).text .null 256 := by
  refine ⟨panics (print_parse_text _ (fun _ => one_writes) longList_named) (by decide +kernel),
    gives (print_parse_text _ ⟨fun _ => one_writes, ?_⟩ ⟨longList_named, ?_⟩) (by decide +kernel)⟩
  · exact .lit _ _ (.int _ 0 rfl (.one '0' (by decide) (by decide)) (by decide))
  · intro u hu
    exact integer_spelled (List.mem_cons_of_mem _ hu)

/-! ## C49: a comment without text -/

/-- Two slashes at the end of a line are two tokens, and the source does not parse. -/
theorem empty_comment : (tokenize "1 //\n".toList).map (·.item) =
      [.ok ⟨.integer, "1"⟩, .ok ⟨.slash, "/"⟩, .ok ⟨.slash, "/"⟩] ∧ Parser.Outcome "1 //\n" = some false :=
  ⟨by kernel_rfl, by decide +kernel⟩

end Dice.Findings
