import Verif.Model.Csv
import Verif.Spec.Solution

/-!
# Reading a delimited file

The reader knows nothing of the writer: a line ends at a newline, a cell at a delimiter.
-/
namespace Verif.Spec

/-- The pieces of a text between the occurrences of a character. -/
def pieces (c : Char) : List Char → List (List Char)
  | [] => [[]]
  | x :: t => if x = c then [] :: pieces c t else
    match pieces c t with
    | [] => [[x]]
    | p :: ps => (x :: p) :: ps

/-- The table in a file: every line is terminated by a newline and its cells are separated by the delimiter. -/
def readTable (delimiter : Char) (file : List Char) : List (List (List Char)) := (pieces '\n' file).dropLast.map (pieces delimiter)

/-- A cell without delimiters and newlines. -/
def CleanCell (delimiter : Char) (cell : List Char) : Prop := delimiter ∉ cell ∧ '\n' ∉ cell

/-- What one row of the file should hold, as texts: label, values, evaluation count, fitness. -/
structure CsvRecord where
  label : List Char
  values : List (List Char)
  nEval : List Char
  fitness : List (List Char)

/-- The cells of a record. -/
def CsvRecord.cells (index attrs : Bool) (r : CsvRecord) : List (List Char) :=
  (if index then [r.label] else []) ++ r.values ++ (if attrs then r.nEval :: r.fitness else [])

open Verif.Model in
/-- The records of a solution set. -/
def csvRecords {α F : Type*} (str : α → List Char) (fit : F → List (List Char)) (a : Sol α F) : List CsvRecord :=
  (a.index.zip (a.arr.rows.zip (a.nEval.zip a.fitness))).map fun p =>
    { label := p.1.toList, values := p.2.1.map str, nEval := (toString p.2.2.1).toList, fitness := fit p.2.2.2 }

open Verif.Model in
/-- The names over the columns. -/
def csvTitles {α F : Type*} (index attrs : Bool) (a : Sol α F) : List (List Char) :=
  (if index then [[]] else []) ++ a.varName.map String.toList ++ (if attrs then "n_eval".toList :: a.fitnessName.map String.toList else [])

open Verif.Model in
/-- A call of `to_csv`. -/
structure CsvCall (α F : Type*) where
  options : CsvOptions
  raveled : Bool
  sol : Sol α F

/-- What one call adds to the table. -/
def CsvCall.lines {α F : Type*} (str : α → List Char) (fit : F → List (List Char)) (c : CsvCall α F) : List (List (List Char)) :=
  (if c.options.header then [csvTitles c.options.index c.options.attrs c.sol] else []) ++
    (csvRecords str fit c.sol).map (CsvRecord.cells c.options.index c.options.attrs)

/-- The table that a file should hold after some calls: appending keeps what is there, writing anew does not. -/
def tableAfter {α F : Type*} (str : α → List Char) (fit : F → List (List Char)) : List (CsvCall α F) → List (List (List Char)) → List (List (List Char))
  | [], t => t
  | c :: rest, t => tableAfter str fit rest ((if c.options.append then t else []) ++ c.lines str fit)

/-- The file after some calls. -/
def fileAfter {α F : Type*} (str : α → List Char) (fit : F → List (List Char)) (calls : List (CsvCall α F)) (file : Option (List Char)) :
    Option (List Char) := calls.foldl (fun f c => (c.sol.toCsv str fit c.options c.raveled f).1) file

end Verif.Spec
