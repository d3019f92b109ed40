import Verif.Dlga.Model
import Mathlib.Algebra.BigOperators.Group.List.Basic
import Mathlib.Algebra.Field.Basic
/-!
# Model of kd/model/kd_dlga.py and kd/model/dlga.py: library, evaluation of a genome, training data

Arrays are lists; a matrix is the list of its columns.  The network, autograd and the SVD are parameters.
-/
namespace Verif.Dlga

/-! ### The library -/

/-- kd_dlga.py:55-61: the columns of `Theta`: those of the user's operators that are available, in order.  `available` is the
dictionary with the keys `u, u_x, u_t, u_xx, u_xxx, u_tt`. -/
def thetaColumns {K : Type} (available : String → Option (List K)) (ops : List String) : List (List K) :=
  ops.filterMap available

/-- kd_dlga.py:20: `library_size = len(operators)`, the range of the genes. -/
def librarySize (ops : List String) : Nat := ops.length

/-! ### `translate_DNA` -/

/-- dlga.py:274-279: the column of one module: ones, times the columns of its genes (`none`: a gene is not a column of `Theta`). -/
def moduleColumn {K : Type} [Mul K] [One K] (theta : List (List K)) (total : Nat) (m : Module) : Option (List K) :=
  m.foldl (fun acc i =>
    match acc, theta[i]? with
    | some c, some col => some (List.zipWith (· * ·) c col)
    | _, _ => none) (some (List.replicate total 1))

/-- dlga.py:260-281 `translate_DNA`: the columns of the modules, and the number of genes. -/
def translate {K : Type} [Mul K] [One K] (theta : List (List K)) (total : Nat) (g : Genome) : Option (List (List K) × Nat) :=
  (g.mapM (moduleColumn theta total)).map (fun cols => (cols, (g.map List.length).sum))

/-! ### `get_fitness` -/

/-- `np.dot(gene_translate, coef)` at row `r`. -/
def predict {K : Type} [Mul K] [Add K] [Zero K] (cols : List (List K)) (coef : List K) (r : Nat) : K :=
  (List.zipWith (fun c a => (c[r]?).getD 0 * a) cols coef).sum

/-- The mean squared residual of `target - cols · coef` over `total` rows (dlga.py:298, 307-309). -/
def mse {K : Type} [Field K] (target : List K) (cols : List (List K)) (coef : List K) (total : Nat) : K :=
  ((List.range total).map (fun r => ((target[r]?).getD 0 - predict cols coef r) ^ 2)).sum / (total : K)

/-- dlga.py:283-319 `get_fitness`: the least-squares step (SVD) is the parameter `solve`.  The result is
(coefficients, penalised fitness, mean squared residual, left-hand side). -/
def getFitness {K : Type} [Field K] [LinearOrder K] (solve : List K → List (List K) → List K) (epi : K) (ut utt : List K)
    (total : Nat) (cols : List (List K)) (len : Nat) : List K × K × K × String :=
  let coef := solve ut cols
  let m := mse ut cols coef total
  let coef2 := solve utt cols
  let m2 := mse utt cols coef2 total
  if m < m2 then (coef, m + epi * (len : K), m, "u_t") else (coef2, m2 + epi * (len : K), m2, "u_tt")

/-! ### `train_NN`: the data -/

/-- Swap the elements at `i` and `j`. -/
def swap {α : Type} (l : List α) (i j : Nat) : List α :=
  match l[i]?, l[j]? with
  | some a, some b => (l.set i b).set j a
  | _, _ => l

/-- `np.random.shuffle` (numpy's documented Fisher–Yates loop, from the last index down to 1): `js i` is the number drawn at index `i`,
taken modulo `i + 1`. -/
def shuffleFrom {α : Type} (js : Nat → Nat) : Nat → List α → List α
  | 0, l => l
  | i + 1, l => shuffleFrom js i (swap l (i + 1) (js (i + 1) % (i + 2)))

def shuffle {α : Type} (js : Nat → Nat) (l : List α) : List α := shuffleFrom js (l.length - 1) l

/-- dlga.py:121-125: the two arrays are shuffled from the same state of the generator. -/
def shuffleBoth {α β : Type} (js : Nat → Nat) (X : List α) (y : List β) : List α × List β := (shuffle js X, shuffle js y)

/-- dlga.py:127-137: the split; `a` is `int(n * train_ratio)` and `b` is `int(n * valid_ratio)`. -/
def splitData {α : Type} (a b : Nat) (l : List α) : List α × List α := (l.take a, (l.drop a).take b)

/-! ### `train_NN`: the checkpoints -/

/-- dlga.py:158-180: the loop with `n` iterations left at iteration `i`.  `err` is the validation error of weights, `stepW` one
optimiser step.  The errors are recorded and the weights saved at every `every`-th iteration (500 in the code): the error is that of the
weights before the step, the saved weights are those after it. -/
def trainLoop {W E : Type} (err : W → E) (stepW : W → W) (every : Nat) :
    Nat → Nat → W → List E → List (Nat × W) → W × List E × List (Nat × W)
  | 0, _, w, es, saved => (w, es, saved)
  | n + 1, i, w, es, saved =>
    if (i + 1) % every = 0 then trainLoop err stepW every n (i + 1) (stepW w) (es ++ [err w]) (saved ++ [(i + 1, stepW w)])
    else trainLoop err stepW every n (i + 1) (stepW w) es saved

/-- `validate_error.index(min(validate_error))`. -/
def argmin {E : Type} [LinearOrder E] (es : List E) : Option Nat := es.min?.map (fun m => es.idxOf m)

/-- dlga.py:111-188 `train_NN`: the best epoch and the files saved. -/
def trainNN {W E : Type} [LinearOrder E] (err : W → E) (stepW : W → W) (every maxIter : Nat) (w0 : W) : Nat × List (Nat × W) :=
  let (w, es, saved) := trainLoop err stepW every maxIter 0 w0 [] []
  match argmin es with
  | none => (maxIter, saved ++ [(maxIter, w)])
  | some k => ((k + 1) * every, saved)

/-- `torch.load(f"model_save/Net_{best_epoch}.pkl")`: the last file saved under that number in this run (`none`: no such file). -/
def loadNet {W : Type} (epoch : Nat) (saved : List (Nat × W)) : Option W := (saved.reverse.find? (fun p => p.1 = epoch)).map Prod.snd

/-! ### `fit_dataset` -/

/-- kd_dlga.py:283-324 with `train_NN`: what happens to the data set's solution array (its entries in row order).  `full`: the full mesh
is used (`Xy_from == "mesh"` or no `sample`); `contiguous`: the array is C-contiguous, so that `usol.reshape(-1, 1)` is a view of it
(numpy), and the in-place shuffle of `y` acts on it.  `sample` returns copies (fancy indexing, _base.py:530, 541). -/
def usolAfterFit {α : Type} (full contiguous : Bool) (js : Nat → Nat) (usol : List α) : List α :=
  if full && contiguous then shuffle js usol else usol

end Verif.Dlga
