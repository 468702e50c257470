import Verif.Model.Solution

/-!
# Exporting solutions: `to_csv` and `to_dict(orient="var")` (`bayes_optim/solution.py`)

A text is a list of characters.  `str` of a value and of a fitness entry are arbitrary functions.
-/
namespace Verif.Model

/-- A text. -/
abbrev Text := List Char

/-- `delimiter.join(cells) + "\n"` (solution.py:364, 372) -/
def csvLine (delimiter : Text) (cells : List Text) : Text := List.intercalate delimiter cells ++ ['\n']

/-- The options of `to_csv` (solution.py:330-338). -/
structure CsvOptions where
  delimiter : Text
  append : Bool
  header : Bool
  index : Bool
  attrs : Bool

/-- solution.py:357-364: the cells of the header. -/
def Sol.csvHeader {α F : Type*} (o : CsvOptions) (a : Sol α F) : List Text :=
  let h := a.varName.map String.toList
  let h := if o.index then [] :: h else h
  if o.attrs then h ++ ("n_eval".toList :: a.fitnessName.map String.toList) else h

/-- solution.py:366-372: the cells of every row; `fit` gives the text of the entries of a fitness. -/
def Sol.csvRows {α F : Type*} (str : α → Text) (fit : F → List Text) (o : CsvOptions) (a : Sol α F) : List (List Text) :=
  let data := a.arr.rows.map fun r => r.map str
  let data := if o.index then List.zipWith (fun l r => l.toList :: r) a.index data else data
  if o.attrs then List.zipWith (fun r nf => r ++ ((toString nf.1).toList :: fit nf.2)) data (a.nEval.zip a.fitness) else data

/-- Whether `np.c_` (lines 368, 370) raises: the parts must have the same number of rows.  The fitness of a row taken out of a set by `X[i]` was raveled
(line 231), so with several objectives it is a column of `n_obj` entries beside one row; `raveled` tells this apart from a solution constructed with one
row. -/
def Sol.csvFails {α F : Type*} (o : CsvOptions) (raveled : Bool) (a : Sol α F) : Bool :=
  (o.index && !(decide (a.index.length = a.arr.rows.length))) ||
    (o.attrs && !(decide (a.nEval.length = a.arr.rows.length) && decide (a.fitness.length = a.arr.rows.length))) ||
    (o.attrs && raveled && !(decide (a.nObj = 1)))

/-- solution.py:330-378 `to_csv`: the content of the file after the call (`none`: there is no file) and whether the call returned.  `fitness_name` is a list. -/
def Sol.toCsv {α F : Type*} (str : α → Text) (fit : F → List Text) (o : CsvOptions) (raveled : Bool) (a : Sol α F) (file : Option Text) :
    Option Text × Bool :=
  if a.csvFails o raveled then (file, false)
  else
    let old := if o.append then file.getD [] else []
    let head := if o.header then csvLine o.delimiter (a.csvHeader o) else []
    (some (old ++ head ++ ((a.csvRows str fit o).map (csvLine o.delimiter)).flatten), true)

/-- solution.py:327 `to_dict(orient="var")` -/
def Sol.toDictVar {α F : Type*} (a : Sol α F) : List (String × List α) :=
  dictOf (a.varName.zipIdx.map fun nk => (nk.1, a.arr.rows.filterMap fun r => r[nk.2]?))

/-- solution.py:322-325 `to_dict(orient="var", with_index=True)` -/
def Sol.toDictVarIndexed {α F : Type*} (a : Sol α F) : List (String × List (String × α)) :=
  dictOf (a.varName.zipIdx.map fun nk => (nk.1, dictOf ((a.index.zip a.arr.rows).filterMap fun ir => (ir.2[nk.2]?).map fun v => (ir.1, v))))

end Verif.Model
