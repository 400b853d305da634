import Mathlib.Data.List.Basic

/-!
# Model of `ylearn/bayesian/_modules.py` and `_network.py`: names of Pyro sites, guides, and the cache of node classes

`_modules.py:35-39, 58-213, 260-340, 341-473`, `_network.py:160-206, 608-626`. Strings are lists of characters. A Pyro site is its name; values and distributions are not modelled here
(see `Model/BNNodes`).
-/

namespace YL.BNS

/-- a string -/
abbrev Str : Type := List Char

/-- `N(a, b)`: `'__'.join([a, b])` (_modules.py:35-39) -/
def N (a b : Str) : Str := a ++ '_' :: '_' :: b

/-- the names used for parameters (_modules.py:67-84, 348-376, 444) -/
def sWeight : Str := ['w', 'e', 'i', 'g', 'h', 't']
/-- (_modules.py:76-84) -/
def sBias : Str := ['b', 'i', 'a', 's']
/-- (_modules.py:375) -/
def sMean : Str := ['m', 'e', 'a', 'n']
/-- (_modules.py:376, 444) -/
def sScale : Str := ['s', 'c', 'a', 'l', 'e']

/-- `f'L{i}'` (_modules.py:188, 209) -/
def sLayer (i : Nat) : Str := 'L' :: Nat.toDigits 10 i

/-- the function of a node with parents: `Linear`, or `MLP` with `hidden_dims` (`None`: one layer as wide as the inputs), and its `bias` (_modules.py:58-199) -/
inductive Fn where
  | linear (bias : Bool)
  | mlp (hidden : Option (List Nat)) (bias : Bool)

/-- sites sampled by `Linear.__init__` (_modules.py:66-86) -/
def linearSites (bias : Bool) (name : Str) : List Str := N name sWeight :: (if bias then [N name sBias] else [])

/-- keys of the answer of `Linear.guide`, which samples them (_modules.py:109-174) -/
def linearGuide (bias : Bool) (name : Str) : List Str := N name sWeight :: (if bias then [N name sBias] else [])

/-- number of layers of an `MLP`: `dims = [n_inputs, *hidden_dims, n_output]` has one more element (_modules.py:181-188) -/
def nLayers (hidden : Option (List Nat)) : Nat :=
  match hidden with
  | none => 2
  | some h => h.length + 1

/-- sites sampled when the function of a node is made (_modules.py:66-86, 178-194) -/
def fnSites (name : Str) : Fn → List Str
  | .linear bias => linearSites bias name
  | .mlp h bias => (List.range (nLayers h)).flatMap (fun i => linearSites bias (N name (sLayer i)))

/-- sites sampled by the `guide` of the function (_modules.py:109-174, 202-211) -/
def fnGuide (name : Str) : Fn → List Str
  | .linear bias => linearGuide bias name
  | .mlp h bias => (List.range (nLayers h)).flatMap (fun i => linearGuide bias (N name (sLayer i)))

/-- a node: name, whether its state is a `CategoryNodeState`, whether it has parents (_network.py:160-192) -/
structure Node where
  name : Str
  cat : Bool
  parents : Bool

/-- the functions of nodes with parents: `MiCategorical` and `MiNumerical` of `BayesianModel` (_network.py:73-80, _modules.py:468-472) -/
structure Mis where
  catFn : Fn
  numFn : Fn

/-- `LinearCategorical`, `LinearNormal`: the classes in use (_network.py:79-80) -/
def defaultMis : Mis := ⟨.linear false, .linear true⟩

/-- latent sites of the node function made by `get_node_function(node)` (_network.py:160-175): `NiCategorical`, `NiNormal`, a subclass of `MiCategorical` or of `MiNormal` - the constructor of
the module first, then the one of the function (_modules.py:290-293, 341-376, 419-446) -/
def nodeLatents (m : Mis) (v : Node) : List Str :=
  if v.cat then
    if v.parents then fnSites v.name m.catFn else [N v.name sWeight]
  else if v.parents then N v.name sScale :: fnSites v.name m.numFn else [N v.name sMean, N v.name sScale]

/-- sites of `model(data)`: all functions of all nodes are made first, then every node is sampled (_network.py:124-141) -/
def modelSites (m : Mis) (vs : List Node) : List Str := vs.flatMap (nodeLatents m) ++ vs.map Node.name

/-- sites of `cls.guide(node, state, n_inputs)` (_modules.py:299-309, 357-366, 383-411, 429-431, 453-465): the function first, then the module -/
def nodeGuide (m : Mis) (v : Node) : List Str :=
  if v.cat then
    if v.parents then fnGuide v.name m.catFn else [N v.name sWeight]
  else if v.parents then fnGuide v.name m.numFn ++ [N v.name sScale] else [N v.name sMean, N v.name sScale]

/-- sites of `BayesianModel.guide(data)` (_network.py:194-206) -/
def guideSites (m : Mis) (vs : List Node) : List Str := vs.flatMap (nodeGuide m)

/-- `_is_cat(site)`: `n = site['name'].split('_')[0]; n in state and state[n] is categorical` (_network.py:614-616) -/
def isCat (vs : List Node) (site : Str) : Bool :=
  vs.any (fun v => decide (v.name = site.takeWhile (fun c => c ≠ '_')) && v.cat)

/-- sites of `gmodel = block(model, hide=nodes)` (_network.py:618) -/
def hidden (m : Mis) (vs : List Node) : List Str := (modelSites m vs).filter (fun s => s ∉ vs.map Node.name)

/-- sites of the guide `AutoDelta(block(gmodel, expose_fn=_is_cat))` (_network.py:619, 623) -/
def deltaSites (m : Mis) (vs : List Node) : List Str := (hidden m vs).filter (isCat vs)

/-- sites of the guide `AutoNormal(block(gmodel, hide_fn=_is_cat))` (_network.py:620, 622) -/
def normalSites (m : Mis) (vs : List Node) : List Str := (hidden m vs).filter (fun s => !isCat vs s)

/-! ### The cache of classes -/

variable {O : Type}

/-- a request `Mod[Fn, options]`: names of the module class and of the function class, options (_modules.py:327-338) -/
structure Request (O : Type) where
  mod : Str
  fn : Str
  options : O
deriving DecidableEq

/-- `_MiModuleMeta._get_cls(mod_cls, fn_cls, fn_options)`: the cache maps the name of a class (function name followed by module name) to the request it was made for; the answer is the request
behind the class that is returned (_modules.py:277-319) -/
def getCls (cache : List (Str × Request O)) (r : Request O) : List (Str × Request O) × Request O :=
  match cache.find? (fun e => e.1 = r.fn ++ r.mod) with
  | some e => (cache, e.2)
  | none => (cache ++ [(r.fn ++ r.mod, r)], r)

/-- a sequence of requests (_modules.py:467-472 are the first four) -/
def history : List (Str × Request O) → List (Request O) → List (Str × Request O)
  | cache, [] => cache
  | cache, r :: rs => history (getCls cache r).1 rs

end YL.BNS
