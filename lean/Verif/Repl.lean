import Verif.Parser

/-!
# Reading the input of the command line tool

The tool asks for lines until one does not end in a backslash, and runs them as one script.
-/

namespace Dice.Repl

/-- `str::trim_end` as used in dice-cli/src/main.rs:34, 36.  The white space is a parameter: Rust's is that of Unicode. -/
def trimEnd (space : Char → Bool) (line : List Char) : List Char :=
  (line.reverse.dropWhile space).reverse

/-- The inner loop of `main`, dice-cli/src/main.rs:29-39: the text that is run, and the lines that are left.  The lines
come with their line ends; after the last one `read_line` gives an empty text.  The conversion to UTF-8 and back
(main.rs:42) and errors of the terminal are not modelled. -/
def readInput (space : Char → Bool) : List (List Char) → List Char × List (List Char)
  | [] => (['\n'], [])
  | line :: rest =>
    if (trimEnd space line).getLast? = some '\\' then
      let (text, rest) := readInput space rest
      (trimEnd space line ++ '\n' :: text, rest)
    else (trimEnd space line ++ ['\n'], rest)

/-- What the tool gives to `Dice::run_script`, dice-cli/src/main.rs:44, dice/src/lib.rs:12-14, as far as the syntax tree. -/
def parseInput (space : Char → Bool) (lines : List (List Char)) : Except Parser.Fail Expr :=
  Parser.parseSource (String.ofList (readInput space lines).1)

end Dice.Repl
