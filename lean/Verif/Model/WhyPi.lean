import Verif.Model.WhyFit
import Verif.Model.WhyPolicy
import Verif.Model.Policy

/-!
# Model of `Why.policy_interpreter` on a fitted object, and of the interpreter it returns

ylearn/api/_why.py:1013-1111 (`_effect_array`, `policy_interpreter`), ylearn/api/_wrapper.py (`WrappedPolicyInterpreter`), ylearn/effect_interpreter/policy_interpreter.py:176-248
(`fit`, `decide`), on top of `Model/WhyFit` (the fitted estimators), `Model/WhyPolicy` (the effect table) and `Model/Policy` (the policy tree).

Simplifications: those of `Model/WhyFit` (discrete treatments, continuous outcome, no instruments, a preprocessor that works row by row), no cost function. A row
of test data is the list of the raw values of adjustment and covariates.
-/

namespace YL.WhyF

open YL Meta Permuted

variable {C V F K : Type} [DecidableEq C] [LinearOrder V]

/-- `TLearner.effect_nji` of a learner for one pair (meta_learner.py:803-818): a column of zeros and the estimates -/
def tNji [Ring K] (ws : List F) (s : T Nat F K) : List K × List K := (List.replicate ws.length 0, ws.map (tEstimate s))

/-- the entry of the effect table for row `i` and column `k` (_why.py:1049, 1069) -/
def entry [Zero K] (cols : List (List Char × List K)) (i : Nat) (k : Fin cols.length) : K := (cols[k].2)[i]?.getD 0

/-- what can go wrong: an exception of `Why` or of the tree (_why.py:1072-1111) -/
inductive PiErr where
  /-- raised by `Why` or the estimators (_why.py:1013-1070) -/
  | why (e : Err)
  /-- raised by `PolicyTree.fit` (policy_model.py:240-506) -/
  | tree (s : String)
  deriving DecidableEq

/-- a fitted `WrappedPolicyInterpreter` (_why.py:1106-1110): the tree, the names of the treatments and, of a row, what the tree looks at when it is asked: the columns
that bear the covariates' names in `transformer.transform(data)` (_wrapper.py:8-12, policy_model.py:524) -/
structure Pi (V K : Type) where
  d : Nat
  tree : Tree.PFitted K d
  names : List (List Char)
  named : List V → Nat → K

/-- `Why.policy_interpreter(test_data, treatment, control)` (_why.py:1072-1111). `fitted` are the treatments of the fitted object, `classes` the classes of their
encoders, `feat` the covariates among the features (`none` if the fitted object has no covariates: then `PolicyInterpreter.fit` asks the absent estimator for
them, policy_interpreter.py:201). The tree is grown from the covariates of the preprocessed data (`feat (pre r)`, _why.py:1107), but asked with the columns of
`preprocessor_.transform(data)` (`named r`, _why.py:1109): the preprocessed data got these columns by position (_why.py:501), so the two differ when the preprocessor changes
the order of the columns, see `Model/WhyPre`. -/
def policyInterpreter [Field K] [LinearOrder K] [FloorRing K] (E : ∀ d, Tree.PEnv K d) (g : Tree.PSettings K) (nFeat : Nat) (pre : List V → F)
    (feat : Option (F → Nat → K)) (named : List V → Nat → K) (str : V → List Char) (classes : C → List V) (fitted : List C) (st : Dict (List C) (Fitted F K))
    (treatment : Option (List C)) (control : Option (List V)) (rows : List (List V)) : Except PiErr (Pi V K) :=
  let xs := treatment.getD (fitted.take 2)
  if 2 < xs.length then .error (.why .value)
  else match dget st xs with
    | none => .error (.why .key)
    | some f => match WhyP.effectArray (tNji (rows.map pre)) rows.length (xs.map classes) str f.learners none control with
      | .error e => .error (.why e)
      | .ok cols => match feat with
        | none => .error (.why .attr)
        | some ft => match Tree.policyFit (E cols.length) g nFeat (rows.map (fun r => ft (pre r))) ((List.range rows.length).map (entry cols)) none with
          | .error s => .error (.tree s)
          | .ok t => .ok ⟨cols.length, t, cols.map (fun c => c.1), named⟩

/-- `WrappedPolicyInterpreter.decide(data)` (_wrapper.py:4-20, policy_interpreter.py:242-248) -/
def Pi.decide [Field K] [LinearOrder K] (p : Pi V K) (rows : List (List V)) : Except String (List (List Char)) :=
  Tree.decideNames p.tree p.names (rows.map (fun r => p.named r))

/-- the leaf of the tree a row falls into (policy_model.py:508-524) -/
def Pi.leaf [Field K] [LinearOrder K] (p : Pi V K) (r : List V) : Nat := Tree.apply p.tree.nodes (p.named r)

end YL.WhyF
