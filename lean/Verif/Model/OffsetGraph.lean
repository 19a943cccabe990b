import Verif.Model.Offsets

/-!
The offset manager: crates/otspec/src/offsetmanager.rs, with what it uses of `petgraph::graph::Graph` and
`petgraph::visit::Topo`, which are not part of the repository.
-/

namespace FT.OffGraph
open FT Off

/-- The fields of a table, in serialization order, with everything that becomes a node of the graph.
* `raw`: bytes written by fields without offsets;
* `null`: an `Offset` without link and with stored offset 0;
* `absent`: an `Option<Offset>` which is `None`;
* `link`: an `Offset`, or `Option<Offset>` (`opt`), to a table.
`vec` says that the field is in a `VecOffset` or an embedded record (ser.rs:173-200). -/
inductive Fields where
  | nil
  | raw (bs : Bytes) (rest : Fields)
  | null (w : Width) (vec : Bool) (rest : Fields)
  | absent (vec : Bool) (rest : Fields)
  | link (w : Width) (vec opt : Bool) (child rest : Fields)
  deriving DecidableEq

/-- The same for the model of Model/Offsets. -/
def Fields.tab : Fields → Tab
  | .nil => .nil
  | .raw bs r => .raw bs r.tab
  | .null w _ r => .null w r.tab
  | .absent _ r => r.tab
  | .link w v o c r => .link w v o none c.tab r.tab

/-- `ot_binary_size` of a table (ser.rs:57-59, 107-141); an `Option` that is `None` has no bytes. -/
def Fields.size : Fields → Nat
  | .nil => 0
  | .raw bs r => bs.length + r.size
  | .null w _ r => w.size + r.size
  | .absent _ r => r.size
  | .link w _ _ _ r => w.size + r.size

/-- `&dyn OffsetMarkerTrait`: an offset with the table it links to. -/
structure Marker where
  w : Width
  opt : Bool
  target : Option Fields
  deriving DecidableEq

/-- `object_size` (offsets.rs:81-83, 364-366). -/
def Marker.size (m : Marker) : Nat := match m.target with
  | none => 0
  | some t => t.size

/-- A list of objects, each with its children. -/
inductive Objs where
  | nil
  | cons (m : Marker) (kids rest : Objs)

/-- Concatenation of lists of objects. -/
def Objs.append : Objs → Objs → Objs
  | .nil, u => u
  | .cons m k r, u => .cons m k (r.append u)

/-- The offsets among the fields with the given flag, in order, each with its children: direct ones first, then those in
vectors and embedded records (`offset_fields`, ser.rs:65-69; `children`, offsets.rs:76-78, 361-363). -/
def Fields.objs : Fields → Bool → Objs
  | .nil, _ => .nil
  | .raw _ r, s => r.objs s
  | .null w v r, s => if v = s then .cons ⟨w, false, none⟩ .nil (r.objs s) else r.objs s
  | .absent v r, s => if v = s then .cons ⟨.w16, true, none⟩ .nil (r.objs s) else r.objs s
  | .link w v o c r, s =>
    if v = s then .cons ⟨w, o, some c⟩ ((c.objs false).append (c.objs true)) (r.objs s) else r.objs s

/-- `petgraph::graph::Graph`: nodes are numbered by their place; edges have source, target and weight, the newest first, as
petgraph's lists of edges have them. -/
structure Graph where
  nodes : List Marker
  edges : List (Nat × Nat × Option Nat)

/-- Targets of the edges from a node (`neighbors`) and sources of those to it, newest first. -/
def Graph.out (g : Graph) (n : Nat) : List Nat := (g.edges.filter (fun e => e.1 = n)).map (fun e => e.2.1)
/-- Sources of the edges to a node, with repetitions. -/
def Graph.inc (g : Graph) (n : Nat) : List Nat := (g.edges.filter (fun e => e.2.1 = n)).map (fun e => e.1)

/-- The weight of the newest edge from `a` to `b`. -/
def weightOf (a b : Nat) : List (Nat × Nat × Option Nat) → Option (Option Nat)
  | [] => none
  | e :: es => if e.1 = a ∧ e.2.1 = b then some e.2.2 else weightOf a b es

/-- `update_edge`: give the newest edge from `a` to `b` this weight. -/
def setWeight (a b w : Nat) : List (Nat × Nat × Option Nat) → List (Nat × Nat × Option Nat)
  | [] => []
  | e :: es => if e.1 = a ∧ e.2.1 = b then (a, b, some w) :: es else e :: setWeight a b w es

/-- `update_edge` adds an edge if there is none. -/
def Graph.update (g : Graph) (a b w : Nat) : Graph :=
  ⟨g.nodes, if (weightOf a b g.edges).isSome then setWeight a b w g.edges else (a, b, some w) :: g.edges⟩

/-- `add_object_graph` (offsetmanager.rs:25-35) for each of a list of objects: first the children, then the node, then the
edges to the children. -/
def addObjs : Objs → Graph → Graph × List Nat
  | .nil, g => (g, [])
  | .cons m kids rest, g =>
    let k := addObjs kids g
    let n := k.1.nodes.length
    let g : Graph := ⟨k.1.nodes ++ [m], k.2.foldl (fun es c => (n, c, none) :: es) k.1.edges⟩
    let r := addObjs rest g
    (r.1, n :: r.2)

/-- `Topo::next` until it gives `None`: take a node from the stack; unless it was seen, it is next, and those of its
neighbours all of whose predecessors have been seen are put on the stack. The first number bounds the rounds. -/
def topoFrom (g : Graph) : Nat → List Nat → List Nat → List Nat
  | 0, _, _ => []
  | _ + 1, [], _ => []
  | k + 1, n :: stack, seen =>
    if n ∈ seen then topoFrom g k stack seen
    else n :: topoFrom g k
      (((g.out n).filter (fun c => (g.inc c).all (· ∈ n :: seen))).foldl (fun s c => c :: s) stack) (n :: seen)

/-- `Topo::new`: the stack has the nodes without predecessor, the last on top. Each node and each edge puts at most one
node on the stack. -/
def topo (g : Graph) : List Nat :=
  topoFrom g (g.nodes.length + g.edges.length + 1) (((List.range g.nodes.length).filter (fun n => (g.inc n).isEmpty)).reverse) []

/-- The first pass of `resolve` (offsetmanager.rs:41-62): the position of each node is the weight of the edge to it. -/
def firstPass : Graph → Nat → List Nat → Res Graph
  | g, _, [] => .ok g
  | g, counter, n :: ns => do
    let m ← Res.unwrap g.nodes[n]?
    let g ← (if 0 < counter then
      match g.inc n with
      | [] => .panic
      | p :: _ => .ok (g.update p n counter)
      else .ok g)
    firstPass g (counter + m.size) ns

/-- What is stored in each offset (`RefCell<Option<U>>`), by node. -/
abbrev Cells := Nat → Option Nat

/-- The inner loop of the second pass (offsetmanager.rs:78-85), over the edges from a node. The offset is cast to `u32`. -/
def setKids (g : Graph) (base : Nat) : List (Nat × Nat × Option Nat) → Cells → Res Cells
  | [], cells => .ok cells
  | e :: es, cells => do
    let w ← Res.unwrap e.2.2
    if w < base then .panic
    let m ← Res.unwrap g.nodes[e.2.1]?
    let cells ← (if m.target.isNone then .ok cells
      else match setOff m.w m.opt ((w - base) % 2 ^ 32) with
        | .ok o => .ok (fun n => if n = e.2.1 then o else cells n)
        | .err => .err
        | .panic => .panic)
    setKids g base es cells

/-- The second pass of `resolve` (offsetmanager.rs:64-87). -/
def secondPass (g : Graph) : Nat → List Nat → Cells → Res Cells
  | _, [], cells => .ok cells
  | base, n :: ns, cells => do
    let base ← (match g.edges.filter (fun e => e.2.1 = n) with
      | [] => .ok base
      | e :: _ => Res.unwrap e.2.2)
    let cells ← setKids g base (g.edges.filter (fun e => e.1 = n)) cells
    secondPass g base ns cells

/-- `to_bytes_shallow` of a table (ser.rs:59-63) with `Offset::to_bytes` (offsets.rs:172-180), `ds` and `vs` being the nodes
of the direct offsets and of the others. -/
def written (cells : Cells) : Fields → List Nat → List Nat → Res Bytes
  | .nil, _, _ => .ok []
  | .raw bs r, ds, vs => do
    let x ← written cells r ds vs
    return bs ++ x
  | .null w v r, ds, vs => do
    let x ← written cells r (if v then ds else ds.tail) (if v then vs.tail else vs)
    return w.enc 0 ++ x
  | .absent v r, ds, vs => written cells r (if v then ds else ds.tail) (if v then vs.tail else vs)
  | .link w v _ _ r, ds, vs => do
    let n ← Res.unwrap (if v then vs else ds).head?
    match cells n with
    | none => .err
    | some o => do
      let x ← written cells r (if v then ds else ds.tail) (if v then vs.tail else vs)
      return w.enc o ++ x

/-- How many offsets there are with the given flag. -/
def Objs.count : Objs → Nat
  | .nil => 0
  | .cons _ _ r => r.count + 1

/-- `serialize_contents` of a node (offsets.rs:119-124). -/
def contents (g : Graph) (cells : Cells) (n : Nat) : Res Bytes := do
  let m ← Res.unwrap g.nodes[n]?
  match m.target with
  | none => return []
  | some t =>
    let kids := (g.out n).reverse
    written cells t (kids.take (t.objs false).count) (kids.drop (t.objs false).count)

/-- `OffsetManager::serialize` (offsetmanager.rs:95-115) for the nodes left. -/
def serialize (g : Graph) (cells : Cells) : List Nat → Res Bytes
  | [] => .ok []
  | n :: ns => do
    let a ← contents g cells n
    let b ← serialize g cells ns
    return a ++ b

/-- `OffsetManager::resolve` (offsetmanager.rs:40-90), on what the offsets held before. -/
def resolveAll (g : Graph) (cells : Cells) : Res (Graph × Cells) := do
  let g ← firstPass g 0 (topo g)
  let cells ← secondPass g 0 (topo g) cells
  return (g, cells)

/-- `OffsetManager::new` (offsetmanager.rs:14-24) on an `Offset16` to the structure; `o` are its offset fields. -/
def manager (t : Fields) (o : Objs) : Graph := (addObjs (.cons ⟨.w16, false, some t⟩ o .nil) ⟨[], []⟩).1

/-- `to_bytes` of a structure with offsets (ser.rs:27-57) with `resolve_offsets` and `resolve_offsets_and_serialize`
(offsetmanager.rs:134-156), the offsets holding anything before: without offset fields its own fields; else its
offsets are resolved, its own fields written, its offsets resolved again by another manager, and all other nodes
written. -/
def toBytes (before : Cells) (t : Fields) : Res Bytes :=
  match (t.objs false).append (t.objs true) with
  | .nil => written before t [] []
  | .cons m k r => do
    let (g, cells) ← resolveAll (manager t (.cons m k r)) before
    let top ← Res.unwrap (topo g).head?
    let a ← contents g cells top
    let (g, cells) ← resolveAll (manager t (.cons m k r)) cells
    let b ← serialize g cells (topo g).tail
    return a ++ b

end FT.OffGraph
