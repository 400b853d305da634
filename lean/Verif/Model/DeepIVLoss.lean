/-
The loss the outcome network of `DeepIV` is trained with, as a function of the network.
Models ylearn/estimator_model/deepiv.py 413-490 (`NetWrapper.fit`, the prediction and `nn.MSELoss()`) and 778-790 (`DeepIV.fit`,
steps 2 and 3), for one outcome.

Simplified: the loss of all rows at once (an epoch adds up the losses of its batches); real numbers for a continuous treatment,
rationals for a discrete one. The optimiser is not modelled: the statements are about minimisers.
-/
import Verif.Model.Mdn
import Verif.Model.DeepIV

namespace YL.DeepIVLoss

open YL

/-- one training row: instrument, adjustment, outcome -/
structure Row (zd ed wd : Nat) where
  z : Mdn.Input zd ed
  w : Fin wd → ℝ
  y : ℝ

variable {zd ed wd h1 h2 k d : Nat}

/-- continuous treatment: `nn.MSELoss()(y_net(x_sampled, w), y)`, where row `i` of `x_sampled` is one draw of the treatment network
for row `i`; as many draws as outcomes are used (deepiv.py:478-482, 778, 787-790) -/
noncomputable def drawLoss (P : Mdn.Weights zd ed wd h1 h2 k d) {n : Nat} (rows : Fin n → Row zd ed wd)
    (h : (Fin d → ℝ) → (Fin wd → ℝ) → ℝ) (ω : Fin n → Fin (k + 1) × (Fin (k + 1) → Fin d → ℝ)) : ℝ :=
  (∑ i, (h (Mdn.sampleRow P (rows i).z (rows i).w (ω i)) (rows i).w - (rows i).y) ^ 2) / n

/-- discrete treatment: `nn.MSELoss()` of the mixed prediction; row `b` of `X` holds the treatment probabilities of row `b`
(deepiv.py:456-468, 784-790) -/
def mixLoss (f : DeepIV.Inp → List ℚ → List ℚ) (xd : Nat) (X W y : List (List ℚ)) : ℚ :=
  (∑ b ∈ Finset.range W.length,
    (((DeepIV.mixPrediction f xd 1 X W).getD b []).getD 0 0 - (y.getD b []).getD 0 0) ^ 2) / W.length

end YL.DeepIVLoss
