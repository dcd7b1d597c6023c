import Verif.Model.Index

/- Model of src/control_flow_graph.rs. -/

namespace HyperIR

/-- src/control_flow_graph.rs:3-5 -/
def escapeDotLabel (s : Str) : Str :=
  '"' :: (s.flatMap fun c => if c = '"' then ['"', '"'] else [c]) ++ ['"']

/-- src/control_flow_graph.rs:14-22: the edges, in emission order (`from`, `to`) -/
def cfgEdges (fb : FunctionBody) : List (Str × Str) :=
  fb.basicBlocks.flatMap fun bb => bb.instructions.flatMap fun i =>
    if i.isBranching then
      match bb.label with
      | some l => i.basicBlockRefs.map fun t => (l.1, t.1)
      | none => []
    else []

/-- src/control_flow_graph.rs:19 -/
def cfgEdgeLine (e : Str × Str) : Str :=
  c!"  " ++ escapeDotLabel e.1 ++ c!" -> " ++ escapeDotLabel e.2 ++ c!"\n"

/-- src/control_flow_graph.rs:7-26 -/
def createCfgDot (fb : FunctionBody) : Str :=
  c!"// Control flow graph for " ++ fb.name.1 ++ c!"\n"
    ++ c!"// In VSCode, I recommend installing the `Graphviz Interactive Preview` extension to view this file.\n"
    ++ c!"strict digraph D {\n"
    ++ c!"  node [shape=box];\n"
    ++ (cfgEdges fb).flatMap cfgEdgeLine
    ++ c!"}\n"

end HyperIR
