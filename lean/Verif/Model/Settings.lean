import Verif.Model.Res

/-!
# Model of `SettingsManager`

Sources: `include/k52/common/settings_manager.h`, `include/k52/common/settings_manager.inl`, on top of `boost::property_tree::ptree` (a tree whose
nodes hold a string and an ordered list of named children, names may repeat; `find` gives the first child of a name; a
path is names separated by dots).  The XML reader is not modelled: it only yields some tree.
-/

namespace K52.Settings

abbrev Key := List Char

mutual
/-- `boost::property_tree::ptree`. -/
inductive Tree where
  | node (data : List Char) (kids : Forest)
/-- The children of a node in order. -/
inductive Forest where
  | nil
  | cons (key : Key) (t : Tree) (rest : Forest)
end

namespace Tree

def data : Tree → List Char
  | .node d _ => d

def kids : Tree → Forest
  | .node _ f => f

/-- A default-constructed `ptree`. -/
def empty : Tree := .node [] .nil

end Tree

namespace Forest

/-- `ptree::find`: the first child of that name. -/
def find : Forest → Key → Option Tree
  | .nil, _ => none
  | .cons k t rest, key => if k = key then some t else rest.find key

/-- Assignment through the iterator `find` returned; without such a child, `push_back`. -/
def update : Forest → Key → (Tree → Tree) → Forest
  | .nil, key, f => .cons key (f .empty) .nil
  | .cons k t rest, key, f => if k = key then .cons k (f t) rest else .cons k t (rest.update key f)

end Forest

namespace Tree

/-- `ptree::walk_path`: the subtree at a path. -/
def child : Tree → List Key → Option Tree
  | t, [] => some t
  | t, k :: ks => (t.kids.find k).bind (fun s => s.child ks)

/-- `ptree::force_path` and the assignment to the child it leads to (`put`, `put_child`, `get_child(..) = ..`). -/
def modify : Tree → List Key → (Tree → Tree) → Tree
  | t, [], f => f t
  | t, k :: ks, f => .node t.data (t.kids.update k (fun s => s.modify ks f))

def setData (v : List Char) : Tree → Tree
  | .node _ f => .node v f

end Tree

/-- The pieces of a string between dots. -/
def pieces : List Char → List Key
  | [] => [[]]
  | c :: cs =>
    if c = '.' then [] :: pieces cs
    else match pieces cs with
      | f :: fs => (c :: f) :: fs
      | [] => [[c]]

/-- `string_path`: the names of a path, separated by dots; a final dot adds nothing, the empty string is the empty path. -/
def frags (s : List Char) : List Key := if (pieces s).getLast? = some [] then (pieces s).dropLast else pieces s

/-- `ptree::put`: sets the data of the node at the path, creating it if necessary.  Creating a node at a path that ends in a dot runs into
an assertion of boost ("Empty path not allowed for put_child"), modelled as `ub`. -/
def put (t : Tree) (name value : List Char) : Res Tree :=
  match t.child (frags name) with
  | some _ => .ok (t.modify (frags name) (Tree.setData value))
  | none => if name.getLast? = some '.' then .ub else .ok (t.modify (frags name) (Tree.setData value))

/-- `ptree::get<std::string>`: the data at a path, if there is such a node. -/
def lookup (t : Tree) (name : List Char) : Option (List Char) := (t.child (frags name)).map Tree.data

/-- Lines 73, 76-78 of settings_manager.h: name and value of a command line argument; `none` when it does not start with `--`.  Without an `=`
both are the whole rest (`npos + 1` is 0). -/
def parseArg : List Char → Option (List Char × List Char)
  | '-' :: '-' :: rest =>
    some (rest.takeWhile (· ≠ '='), if '=' ∈ rest then (rest.dropWhile (· ≠ '=')).tail else rest)
  | _ => none

/-- `ParseCommandLine`, settings_manager.h:68-83. -/
def parseCommandLine : Tree → List (List Char) → Res Tree
  | t, [] => .ok t
  | t, a :: as =>
    match parseArg a with
    | some (name, value) => do
      let t ← put t name value
      parseCommandLine t as
    | none => parseCommandLine t as

/-- The constructor from a command line, settings_manager.h:22-25. -/
def fromCommandLine (args : List (List Char)) : Res Tree := parseCommandLine .empty args

/-- A translator of boost between strings and values of a type; both directions can fail. -/
structure Translator (α : Type) where
  read : List Char → Option α
  write : α → Option (List Char)

variable {α : Type}

/-- `get` of a mandatory property, settings_manager.inl:8-19. -/
def getMandatory (tr : Translator α) (t : Tree) (name : List Char) : Res α :=
  match (lookup t name).bind tr.read with
  | some v => .ok v
  | none => .throw "runtime_error"

/-- `get` with a default, settings_manager.inl:21-30. -/
def getDefault (tr : Translator α) (t : Tree) (name : List Char) (dflt : α) : α :=
  match (lookup t name).bind tr.read with
  | some v => v
  | none => dflt

/-- `put`, settings_manager.inl:32-42: `put_value` comes after the node was created. -/
def putValue (tr : Translator α) (t : Tree) (name : List Char) (v : α) : Res (Tree × Bool) :=
  match tr.write v with
  | some s => do
    let t ← put t name s
    return (t, true)
  | none =>
    match t.child (frags name) with
    | some _ => .ok (t, false)
    | none => do
      let t ← put t name []
      return (t, false)

mutual
/-- `Merge`, settings_manager.h:104-123.  Names of children are used as paths in `get_child` and `put_child`; `get_child` throws when there is
no such path. -/
def merge : Tree → Tree → Res Tree
  | l, .node _ kids => mergeKids l kids
/-- The loop of `Merge`, settings_manager.h:108-121. -/
def mergeKids : Tree → Forest → Res Tree
  | m, .nil => .ok m
  | m, .cons k t rest =>
    match m.kids.find k with
    | some found => do
      let sub ← merge found t
      match m.child (frags k) with
      | some _ => mergeKids (m.modify (frags k) (fun _ => sub)) rest
      | none => .throw "ptree_bad_path"
    | none => if k = [] ∨ k.getLast? = some '.' then .ub else mergeKids (m.modify (frags k) (fun _ => t)) rest
end

end K52.Settings
