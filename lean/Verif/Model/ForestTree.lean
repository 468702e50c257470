import Verif.Model.RandomForest

/-!
# The trees of the forest

`RandomForest.fit` (`bayes_optim/surrogate/random_forest.py:111-117`) hands the encoded samples to scikit-learn, whose trees split at thresholds and predict the mean of the
observations that fall into a leaf.  How the splits are chosen is left open.  Weights of a bootstrap sample appear as repeated numbers in a leaf.
-/
namespace Verif.Model

/-- A regression tree; a leaf holds the numbers of its training samples. -/
inductive RegTree (K : Type*) where
  | leaf (samples : List ℕ)
  | node (column : ℕ) (threshold : K) (low high : RegTree K)

/-- The prediction of a tree for the encoded sample `x` (random_forest.py:60 and 148 call it); `y` are the observations of `fit` (random_forest.py:115). -/
def treePredict {K : Type*} [Field K] [LinearOrder K] (y : List K) : RegTree K → List K → K
  | .leaf samples, _ => rfMean (samples.map fun i => y.getD i 0)
  | .node column threshold low high, x => if x.getD column 0 ≤ threshold then treePredict y low x else treePredict y high x

/-- random_forest.py:119-155 `predict` for one row, with the trees of `fit` and the threads in the order `order`. -/
def forestPredict {α K : Type*} [DecidableEq α] [Field K] [LinearOrder K] (toFloat : α → Option K) (levels : RfLevels α) (y : List K) (trees : List (RegTree K)) (order : List ℕ)
    (row : List α) : Option (K × Option K) :=
  rfPredict toFloat levels trees.length (trees.map (treePredict y)) order row

end Verif.Model
