import Verif.FileLoader
import Verif.Findings
import Verif.GlobalProps

/-!
# Which files an import can read (C67), and which imports share a module (C68)
-/

namespace Dice.Files

/-- The path leads to a directory through directories, without links. -/
def Directory (fs : FileSystem) (p : Path) : Prop := ∀ a b, p = a ++ b → fs a = some .dir

/-- The path leads through directories, without links, to something. -/
def Real (fs : FileSystem) (p : Path) : Prop := ∀ a b, p = a ++ b → b ≠ [] → fs a = some .dir

theorem Directory.real {fs : FileSystem} {p : Path} (h : Directory fs p) : Real fs p := fun a b e _ => h a b e

theorem Directory.up {fs : FileSystem} {p : Path} (h : Directory fs p) : Directory fs p.dropLast := by
  intro a b e
  cases p with
  | nil => exact h a b e
  | cons c cs => exact h a (b ++ [(c :: cs).getLast (by simp)]) (by rw [← List.append_assoc, ← e, List.dropLast_concat_getLast])

theorem Directory.add {fs : FileSystem} {p : Path} {c : String} (h : Directory fs p) (hc : fs (p ++ [c]) = some .dir) :
    Directory fs (p ++ [c]) := by
  intro a b e
  rcases List.append_eq_append_iff.1 e with ⟨x, h1, h2⟩ | ⟨x, h1, h2⟩
  · cases x with
    | nil => rw [List.append_nil] at h1; rw [h1]; exact h p [] (List.append_nil _).symm
    | cons y x =>
      injection h2 with h2 h3
      obtain ⟨rfl, -⟩ := List.append_eq_nil_iff.1 h3.symm
      rw [h1, ← h2]
      exact hc
  · exact h a x h1

theorem Directory.file {fs : FileSystem} {p : Path} {c : String} (h : Directory fs p) : Real fs (p ++ [c]) := by
  intro a b e hb
  rcases List.append_eq_append_iff.1 e with ⟨x, h1, h2⟩ | ⟨x, h1, h2⟩
  · cases x with
    | nil => rw [List.append_nil] at h1; rw [h1]; exact h p [] (List.append_nil _).symm
    | cons y x =>
      injection h2 with h2 h3
      exact absurd (List.append_eq_nil_iff.1 h3.symm).2 hb
  · exact h a x h1

theorem walk_real {fs : FileSystem} (hroot : fs [] = some .dir) {follow : Path → List String → Option Path}
    (hf : ∀ {here todo p}, Directory fs here → follow here todo = some p → Real fs p) (here : Path) (todo : List String) :
    ∀ {p : Path}, Directory fs here → walk fs follow here todo = some p → Real fs p := by
  fun_induction walk fs follow here todo with
  | case1 => exact fun hd h => by cases h; exact hd.real
  | case2 _ _ _ _ ih => exact fun hd h => ih hd h
  | case3 _ _ _ ih => exact fun hd h => ih hd.up h
  | case4 => exact fun _ h => nomatch h
  | case5 _ _ _ _ _ hd' ih => exact fun hd h => ih (hd.add hd') h
  | case6 => exact fun hd h => by cases h; exact hd.file
  | case7 => exact fun _ h => nomatch h
  | case8 =>
    intro p hd h
    refine hf ?_ h
    split
    · intro a b e
      obtain ⟨rfl, -⟩ := List.append_eq_nil_iff.1 e.symm
      exact hroot
    · exact hd

/-- What a name is resolved to has no links. -/
theorem resolve_real {fs : FileSystem} (hroot : fs [] = some .dir) (links : Nat) :
    ∀ {here : Path} {todo : List String} {p : Path}, Directory fs here → resolve fs links here todo = some p → Real fs p := by
  induction links with
  | zero => exact fun hd h => walk_real hroot (fun _ h => by simp at h) _ _ hd h
  | succ links ih => exact fun hd h => walk_real hroot (fun hd h => ih hd h) _ _ hd h

theorem canonicalize_real {fs : FileSystem} {links : Nat} {wd : Path} (hwd : Directory fs wd) {name : String} {p : Path}
    (h : canonicalize fs links wd name = some p) : Real fs p := by
  unfold canonicalize at h
  split at h
  · cases h
  · refine resolve_real (hwd [] wd rfl) _ ?_ h
    split
    · intro a b e
      obtain ⟨rfl, -⟩ := List.append_eq_nil_iff.1 e.symm
      exact hwd [] wd rfl
    · exact hwd

/-- **C67.**  Whatever is written as the name of a module, `..`, a path from the root or through links included: what is loaded
is the module in a file that lies in the working directory or, through directories only, below it. -/
theorem import_confined {fs : FileSystem} {links : Nat} {wd : Path} (hwd : Directory fs wd) {name : String} {bc : Bytecode}
    (h : loadModule fs links wd name = .ok bc) : ∃ below file text tree,
      fs (wd ++ below ++ [file]) = some (.file (some text)) ∧ (∀ a b, below = a ++ b → fs (wd ++ a) = some .dir) ∧
      Parser.parseSource text = .ok tree ∧ compile .module tree = .ok bc := by
  unfold loadModule at h
  split at h
  · cases h
  · next p hp =>
    split at h
    · next hpre =>
      split at h
      · next text ht =>
        split at h
        · cases h
        · next tree htree =>
          split at h
          · cases h
          · next bc' hbc =>
            cases h
            obtain ⟨rel, rfl⟩ := List.isPrefixOf_iff_prefix.1 hpre
            have hreal := canonicalize_real hwd hp
            rcases List.eq_nil_or_concat rel with rfl | ⟨below, file, rfl⟩
            · rw [List.append_nil, hwd wd [] (List.append_nil _).symm] at ht
              cases ht
            · refine ⟨below, file, text, tree, by rw [List.concat_eq_append] at ht; rw [List.append_assoc]; exact ht, ?_, htree, hbc⟩
              intro a b e
              exact hreal (wd ++ a) (b ++ [file]) (by rw [e]; simp) (by simp)
      · cases h
    · cases h

/-! ## What lies outside does not matter -/

/-- The entry without the text of a file. -/
def Entry.shape : Entry → Option (Option (Bool × List String))
  | .file _ => none
  | .dir => some none
  | .link absolute target => some (some (absolute, target))

/-- The file systems differ at most in the texts of files outside the directory. -/
structure SameInside (wd : Path) (fs fs' : FileSystem) : Prop where
  inside : ∀ p, wd <+: p → fs p = fs' p
  shape : ∀ p, (fs p).map Entry.shape = (fs' p).map Entry.shape

theorem walk_same {fs fs' : FileSystem} (hs : ∀ p, (fs p).map Entry.shape = (fs' p).map Entry.shape)
    (follow : Path → List String → Option Path) (here : Path) (todo : List String) :
    walk fs follow here todo = walk fs' follow here todo := by
  induction todo generalizing here with
  | nil => rfl
  | cons c todo ih =>
    unfold walk
    split
    · exact ih _
    · split
      · exact ih _
      · have h := hs (here ++ [c])
        cases h1 : fs (here ++ [c]) with
        | none =>
          cases h2 : fs' (here ++ [c]) with
          | none => rfl
          | some e' => rw [h1, h2] at h; cases h
        | some e =>
          cases h2 : fs' (here ++ [c]) with
          | none => rw [h1, h2] at h; cases h
          | some e' =>
            rw [h1, h2] at h
            cases e <;> cases e' <;> simp_all [Entry.shape]

theorem resolve_same {fs fs' : FileSystem} (hs : ∀ p, (fs p).map Entry.shape = (fs' p).map Entry.shape) (links : Nat) :
    resolve fs links = resolve fs' links := by
  induction links with
  | zero =>
    funext here todo
    exact walk_same hs _ _ _
  | succ links ih =>
    funext here todo
    unfold resolve
    rw [ih]
    exact walk_same hs _ _ _

/-- **C67.**  The texts of the files outside the working directory have no influence on any import. -/
theorem outside_unread {fs fs' : FileSystem} {wd : Path} (h : SameInside wd fs fs') (links : Nat) :
    loadModule fs links wd = loadModule fs' links wd := by
  funext name
  have hc : canonicalize fs links wd name = canonicalize fs' links wd name := by
    unfold canonicalize
    rw [resolve_same h.shape]
  unfold loadModule
  rw [hc]
  split
  · rfl
  · split
    · next hp => rw [h.inside _ (List.isPrefixOf_iff_prefix.1 hp)]
    · rfl

/-- **C67.**  Nor have they on any run of a program. -/
theorem run_unread {fs fs' : FileSystem} {wd : Path} (h : SameInside wd fs fs') (links : Nat) (w : World) (n : Nat) (bc : Bytecode) (m : VM) :
    run { w with loader := loadModule fs links wd } n bc m = run { w with loader := loadModule fs' links wd } n bc m := by
  rw [outside_unread h links]

/-! ## Spellings of a name -/

/-- **C68.**  Names that lead to the same file give the same code. -/
theorem same_file_same_code {fs : FileSystem} {links : Nat} {wd : Path} {name name' : String}
    (h : canonicalize fs links wd name = canonicalize fs links wd name') (bc : Bytecode) :
    loadModule fs links wd name = .ok bc ↔ loadModule fs links wd name' = .ok bc := by
  unfold loadModule
  rw [h]
  split
  · simp
  · split
    · split
      · split
        · simp
        · split <;> simp
      · simp
    · simp

/-- **C68.**  `./name` leads where `name` does. -/
theorem dot_spelling {fs : FileSystem} {links : Nat} {wd : Path} {name : String} (hn : name ≠ "") (hr : name.toList.head? ≠ some '/') :
    canonicalize fs links wd ("./" ++ name) = canonicalize fs links wd name := by
  have hl : ("./" ++ name).toList = '.' :: '/' :: name.toList := by simp
  unfold canonicalize
  by_cases h0 : '\x00' ∈ name.toList
  · have h1 : '\x00' ∈ ("./" ++ name).toList := by rw [hl]; simp [h0]
    rw [if_pos (Or.inr h1), if_pos (Or.inr h0)]
  · have h1 : ¬ ("./" ++ name = "" ∨ '\x00' ∈ ("./" ++ name).toList) := by
      rintro (h1 | h1)
      · have := congrArg String.toList h1
        rw [hl] at this
        cases this
      · rw [hl] at h1
        simp [h0] at h1
    have h2 : ¬ (name = "" ∨ '\x00' ∈ name.toList) := by simp [hn, h0]
    rw [if_neg h1, if_neg h2, hl, if_neg hr, if_neg (by simp)]
    rw [show splitPath ('.' :: '/' :: name.toList) = ['.'] :: splitPath name.toList by simp [splitPath]]
    cases links <;> rfl

/-! ## A file system -/

/-- The working directory `/w` with the module `m` and a link `l` to it, and next to it `/s/k`, to which the link `/w/o` leads. -/
def sample (secret : String) : FileSystem := fun p =>
  if p = [] ∨ p = ["w"] ∨ p = ["s"] then some .dir
  else if p = ["w", "m"] then some (.file (some "export let mut x = 1"))
  else if p = ["w", "l"] then some (.link true ["w", "m"])
  else if p = ["s", "k"] then some (.file (some secret))
  else if p = ["w", "o"] then some (.link false ["..", "s", "k"])
  else none

theorem sample_wd (secret : String) : Directory (sample secret) ["w"] := by
  intro a b e
  match a, e with
  | [], _ => rfl
  | [x], e => injection e with e _; subst e; rfl
  | x :: y :: a, e => injection e with _ e; cases e

example : SameInside ["w"] (sample "1") (sample "2") where
  inside := by
    rintro p ⟨r, rfl⟩
    simp [sample]
  shape := by
    intro p
    unfold sample
    repeat' split
    all_goals rfl

/-- The name is resolved to the path. -/
example : canonicalize (sample "1") 40 ["w"] "l" = some ["w", "m"] ∧ canonicalize (sample "1") 40 ["w"] "../w/./m" = some ["w", "m"] ∧
    canonicalize (sample "1") 40 ["w"] "/w/m" = some ["w", "m"] ∧ canonicalize (sample "1") 40 ["w"] "o" = some ["s", "k"] ∧
    canonicalize (sample "1") 40 ["w"] "m/" = none := by decide +kernel

/-- The module is loaded by name and through the link; the file outside by none of its names. -/
example : (loadModule (sample "1") 40 ["w"] "m").isOk = true ∧ (loadModule (sample "1") 40 ["w"] "l").isOk = true ∧
    (loadModule (sample "1") 40 ["w"] "o").isOk = false ∧ (loadModule (sample "1") 40 ["w"] "../s/k").isOk = false ∧
    (loadModule (sample "1") 40 ["w"] "/s/k").isOk = false := by decide +kernel

/-- Whether a directory outside exists can be seen: the name goes through it. -/
example : (loadModule (sample "1") 40 ["w"] "../s/../w/m").isOk = true ∧
    (loadModule (fun p => if p = ["s"] then none else sample "1" p) 40 ["w"] "../s/../w/m").isOk = false := by decide +kernel

/-- `import a from "m"; import b from name; a.x = 2; b.x`. -/
def twice (name : String) : Expr :=
  .block [.importDecl (some "a") [] "m", .importDecl (some "b") [] name, .assign .assign (.field (.ident "a") "x") (.int 2)]
    (some (.field (.ident "b") "x"))

/-- The program gives the value, with the modules of the file system. -/
def givesWith (fs : FileSystem) (e : Expr) (v : Value) : Bool :=
  match compile .script e with
  | .error _ => false
  | .ok bc => match (run { Findings.world true with loader := loadModule fs 40 ["w"] } 2000 bc Findings.machine).1 with
    | .ok u => Findings.same u v
    | _ => false

/-- **C68**, refuted: under another spelling of its name a module is another one, with its own variables.  The first two
programs differ in the spelling only. -/
theorem spellings_are_modules : givesWith (sample "1") (twice "m") (.int 2) = true ∧
    givesWith (sample "1") (twice "./m") (.int 1) = true ∧ givesWith (sample "1") (twice "l") (.int 1) = true := by
  decide +kernel

end Dice.Files
