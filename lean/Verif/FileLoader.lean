import Verif.Compiler
import Verif.Parser
import Verif.Vm

/-!
# The loader of module files

The file system is a parameter: what is found under each absolute path without links.
-/

namespace Dice.Files

/-- The components of an absolute path, from the root. -/
abbrev Path := List String

/-- What is found in a directory.  The text of a file is missing if its bytes are not UTF-8.  A link stands for the
components of its target, which starts from the root or from the directory of the link. -/
inductive Entry where
  | file (text : Option String)
  | dir
  | link (absolute : Bool) (target : List String)
  deriving DecidableEq

/-- What is found under each path other than the root, which is a directory. -/
abbrev FileSystem := Path → Option Entry

/-- Follows `todo` from the directory `here`; `follow` goes on at a link. -/
def walk (fs : FileSystem) (follow : Path → List String → Option Path) (here : Path) : List String → Option Path
  | [] => some here
  | c :: todo =>
    if c = "" ∨ c = "." then walk fs follow here todo
    else if c = ".." then walk fs follow here.dropLast todo
    else
      match fs (here ++ [c]) with
      | none => none
      | some .dir => walk fs follow (here ++ [c]) todo
      | some (.file _) => if todo = [] then some (here ++ [c]) else none
      | some (.link absolute target) => follow (if absolute then [] else here) (target ++ todo)

/-- `dunce::canonicalize`, which off Windows is `std::fs::canonicalize`, that is `realpath` of POSIX: follows the components
from the directory `here`.  At most `links` links are followed. -/
def resolve (fs : FileSystem) : Nat → Path → List String → Option Path
  | 0, here, todo => walk fs (fun _ _ => none) here todo
  | links + 1, here, todo => walk fs (resolve fs links) here todo

/-- The parts of the text between slashes. -/
def splitPath : List Char → List (List Char)
  | [] => [[]]
  | c :: cs =>
    if c = '/' then [] :: splitPath cs
    else
      match splitPath cs with
      | [] => [[c]]
      | p :: ps => (c :: p) :: ps

/-- `dunce::canonicalize(name)`, file_loader.rs:23, in the directory `wd`.  An empty name and one with a NUL are errors. -/
def canonicalize (fs : FileSystem) (links : Nat) (wd : Path) (name : String) : Option Path :=
  if name = "" ∨ '\x00' ∈ name.toList then none
  else resolve fs links (if name.toList.head? = some '/' then [] else wd) ((splitPath name.toList).map String.ofList)

/-- `FileModuleLoader::load_module`, dice-runtime/src/module/file_loader.rs:19-45.  `wd` is the canonical path of the current
directory.  All errors are `load` errors; the error code and the contexts are dropped, and a panic of the
compiler counts as one.  The file is read at the moment when its path is resolved: changes of the file system in between are
not modelled. -/
def loadModule (fs : FileSystem) (links : Nat) (wd : Path) (name : String) : Except RtErr Bytecode :=
  match canonicalize fs links wd name with
  | none => .error (.load name)
  | some path =>
    if wd.isPrefixOf path then
      match fs path with
      | some (.file (some text)) =>
        match Parser.parseSource text with
        | .error _ => .error (.load name)
        | .ok tree =>
          match compile .module tree with
          | .error _ => .error (.load name)
          | .ok bytecode => .ok bytecode
      | _ => .error (.load name)
    else .error (.load name)

end Dice.Files
