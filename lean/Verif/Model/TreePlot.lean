import Verif.Model.Policy
import Verif.Model.Nx
import Mathlib.Data.Rat.Floor
import Mathlib.Data.List.Sort

/-!
# Model of the plots of trees: `ylearn/effect_interpreter/_export.py`

What `PolicyInterpreter.plot` (policy_interpreter.py:294-381) and `CEInterpreter.plot` (ce_interpreter.py:281-375) draw: one annotation per box, with the box its arrow comes from, the word beside the
arrow and the fill colour. Not modelled: positions and font sizes (`buchheim`, matplotlib), sklearn's text of a node. Numbers are exact; `rnd` is the rounding of `int(round(., 0))`, which theorems only
assume to be a rounding to a nearest integer. `max_depth` is `None` or a natural number.
-/

namespace YL.TreePlot

open YL YL.Tree

variable {K : Type} [Field K] [LinearOrder K]

/-- a colour `#RRGGBB` (_export.py:152-155) -/
structure Color where
  r : Int
  g : Int
  b : Int
  deriving DecidableEq

/-- the six sectors of the hue circle, and the first again (_export.py:50-57) -/
def sector (c x : ℚ) : Nat → ℚ × ℚ × ℚ
  | 0 => (c, x, 0)
  | 1 => (x, c, 0)
  | 2 => (0, c, x)
  | 3 => (0, x, c)
  | 4 => (x, 0, c)
  | 5 => (c, 0, x)
  | _ => (c, x, 0)

/-- the colour of a hue `h` in degrees: saturation 0.75, value 0.9 (_export.py:40-61) -/
def hueColor (h : Nat) : Nat × Nat × Nat :=
  let c : ℚ := 3 / 4 * (9 / 10)
  let m : ℚ := 9 / 10 - c
  let hbar : ℚ := h / 60
  let x : ℚ := c * (1 - |(hbar - 2 * (h / 120 : Nat)) - 1|)
  let s := sector c x (h / 60)
  (⌊255 * (s.1 + m)⌋.toNat, ⌊255 * (s.2.1 + m)⌋.toNat, ⌊255 * (s.2.2 + m)⌋.toNat)

/-- `np.arange(25, 385, 360. / n).astype(int)` (_export.py:45) -/
def hues (n : Nat) : List Nat := (List.range n).map (fun k => (25 * n + 360 * k) / n)

/-- `_color_brew(n)` (_export.py:27-64) -/
def colorBrew (n : Nat) : List (Nat × Nat × Nat) := (hues n).map hueColor

/-- one channel: `int(round(alpha * c + (1 - alpha) * 255, 0))` (_export.py:153) -/
def channel (rnd : K → Int) (alpha : K) (c : Nat) : Int := rnd (alpha * c + (1 - alpha) * 255)

/-- the colour as `alpha` against white (_export.py:150-155) -/
def mix (rnd : K → Int) (alpha : K) (c : Nat × Nat × Nat) : Color := ⟨channel rnd alpha c.1, channel rnd alpha c.2.1, channel rnd alpha c.2.2⟩

/-- `get_color(value)`, the branch without bounds, which is the one in use (_export.py:134-155): the colour of the largest entry, `alpha` from the two largest. A division by zero gives NaN
(`ValueError` in `int`) or infinity (`OverflowError`, here `exception`). -/
def getColor (rnd : K → Int) (rgb : List (Nat × Nat × Nat)) (value : List K) : Except Err Color :=
  match argmax value with
  | .error _ => .error .value
  | .ok k =>
    match rgb[k]? with
    | none => .error .index
    | some c =>
      match value.insertionSort (fun a b => b ≤ a) with
      | [] => .error .index
      | [_] => .ok (mix rnd 0 c)
      | a :: b :: _ => if b = 1 then (if a = b then .error .value else .error .exception) else .ok (mix rnd ((a - b) / (1 - b)) c)

/-- `np.min` of a row (_export.py:323, 412) -/
def minRow : List K → K
  | [] => 0
  | a :: l => l.foldl (fun b x => if x < b then x else b) a

/-- `node_val` of `_PolicyTreeMPLExporter.get_fill_color`: shifted to start at 0, scaled to end at 1 (_export.py:411-414) -/
def scaled (v : List K) : List K :=
  if 0 < maxRow (v.map (fun x => x - minRow v)) then (v.map (fun x => x - minRow v)).map (fun x => x / maxRow (v.map (fun x => x - minRow v)))
  else v.map (fun x => x - minRow v)

/-- `_PolicyTreeMPLExporter.get_fill_color` for a node with the values `v` (_export.py:407-415); `tree.n_outputs` is `len(v)` -/
def policyFill (rnd : K → Int) (v : List K) : Except Err Color := getColor rnd (colorBrew v.length) (scaled v)

/-- `self.colors['rgb']` of `_CateTreeExporter` (_export.py:320) -/
def cateColors : List (Nat × Nat × Nat) := [(233, 150, 60), (6, 42, 220)]

/-- `value` of `_CateTreeExporter.get_fill_color` (_export.py:322-333); `lo`, `hi` are `tree_min`, `tree_max` -/
def cateValue (lo hi x : K) : List K :=
  if 0 < x then [max 0 lo / hi, x / hi] else if x < 0 then [x / lo, min 0 hi / lo] else [0, 0]

/-- `_CateTreeExporter.get_fill_color` (_export.py:315-335): `means` are the means of the values of all nodes, `x` the one of this node, `eps` is `1e-12` -/
def cateFill (rnd : K → Int) (eps : K) (means : List K) (x : K) : Except Err Color := getColor rnd cateColors (cateValue (minRow means - eps) (maxRow means + eps) x)

/-! ### The boxes -/

variable {V : Type}

/-- sklearn's `_reingold_tilford.Tree` without label (_export.py:157-174) -/
inductive Shape where
  | leaf (id : Nat)
  | split (id : Nat) (left right : Shape)

/-- `self.max_depth is None or depth <= self.max_depth` (_export.py:162, 195) -/
def shown : Option Nat → Nat → Bool
  | none, _ => true
  | some m, depth => decide (depth ≤ m)

/-- `_make_tree(node_id, et, ..., depth)`, with `fuel` for its recursion (_export.py:157-174) -/
def makeTree (nodes : List (Node K V)) (maxDepth : Option Nat) : Nat → Nat → Nat → Shape
  | 0, id, _ => .leaf id
  | fuel + 1, id, depth =>
    match nodes[id]? with
    | none => .leaf id
    | some n =>
      match n.left, n.right with
      | some l, some r =>
        if shown maxDepth depth = true then .split id (makeTree nodes maxDepth fuel l (depth + 1)) (makeTree nodes maxDepth fuel r (depth + 1)) else .leaf id
      | _, _ => .leaf id

/-- One annotation (_export.py:195-239): the node whose text is in the box (`none`: `(...)`), the node its arrow comes from, the word beside the arrow, the fill colour (`none`: the background). -/
structure Ann where
  node : Option Nat
  parent : Option Nat
  word : Option String
  fill : Option Color
  deriving DecidableEq

/-- the grey box `(...)` (_export.py:233-239) -/
def dots (parent : Option Nat) : Ann := ⟨none, parent, none, none⟩

/-- `recurse(node, ..., text_pos, depth)` (_export.py:176-239): the first child is `yes`, the last is `no` -/
def recurse (maxDepth : Option Nat) (fill : Nat → Except Err (Option Color)) : Shape → Option Nat → Option String → Nat → Except Err (List Ann)
  | .leaf id, parent, word, depth =>
    if shown maxDepth depth = true then
      match fill id with
      | .error e => .error e
      | .ok c => .ok [⟨some id, parent, word, c⟩]
    else .ok [dots parent]
  | .split id l r, parent, word, depth =>
    if shown maxDepth depth = true then
      match fill id with
      | .error e => .error e
      | .ok c =>
        match recurse maxDepth fill l (some id) (some "yes") (depth + 1) with
        | .error e => .error e
        | .ok as =>
          match recurse maxDepth fill r (some id) (some "no") (depth + 1) with
          | .error e => .error e
          | .ok bs => .ok (⟨some id, parent, word, c⟩ :: (as ++ bs))
    else .ok [dots parent]

/-- `export(decision_tree, ...)` (_export.py:241-286): what is drawn -/
def export' (nodes : List (Node K V)) (maxDepth : Option Nat) (fill : Nat → Except Err (Option Color)) : Except Err (List Ann) :=
  recurse maxDepth fill (makeTree nodes maxDepth nodes.length 0 0) none none 0

/-- the colour of a box if `filled` (_export.py:196-199): `paint` gets the value of the node -/
def fillWith (nodes : List (Node K V)) (filled : Bool) (paint : V → Except Err Color) (id : Nat) : Except Err (Option Color) :=
  if filled = false then .ok none
  else match nodes[id]? with
    | none => .error .index
    | some n => match paint n.value with
      | .error e => .error e
      | .ok c => .ok (some c)

/-- `PolicyInterpreter.plot(max_depth=..., filled=...)` (policy_interpreter.py:294-381) -/
def plotPolicy {d : Nat} (rnd : K → Int) (t : PFitted K d) (maxDepth : Option Nat) (filled : Bool) : Except Err (List Ann) :=
  export' t.nodes maxDepth (fillWith t.nodes filled (fun f => policyFill rnd ((List.finRange d).map f)))

/-- `np.mean(tree.value[node_id])` (_export.py:323-326) -/
def meanValue {d : Nat} (f : Fin d → K) : K := ((List.finRange d).map f).sum / d

/-- `CEInterpreter.plot(max_depth=..., filled=...)` (ce_interpreter.py:281-375) -/
def plotCate {d : Nat} (rnd : K → Int) (eps : K) (nodes : List (Node K (Fin d → K))) (maxDepth : Option Nat) (filled : Bool) : Except Err (List Ann) :=
  export' nodes maxDepth (fillWith nodes filled (fun f => cateFill rnd eps (nodes.map (fun n => meanValue n.value)) (meanValue f)))

/-- the lines `name=value` of a box of `PolicyInterpreter.plot` (_export.py:417-452, all treatments shown); `zip` stops at the shorter list -/
def policyLines (names : Option (List String)) (v : List K) : List (String × K) :=
  match names with
  | some ns => ns.zip v
  | none => ((List.range v.length).map (fun i => "T[" ++ toString i ++ "]")).zip v

end YL.TreePlot
