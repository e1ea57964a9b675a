import Verif.Dot.Model

/-! # Drawings: specification -/

namespace Verif.Dot
open Verif Verif.Session

/-- The graph has a node named `a`. -/
def Graph.HasNode (g : Graph) (a : PyStr) : Prop := ∃ n ∈ g.nodes, n.name = a

/-- The graph has an edge from `a` to `b`. -/
def Graph.HasEdge (g : Graph) (a b : PyStr) : Prop := ∃ e ∈ g.edges, e.src = a ∧ e.dst = b

/-! ## Messages -/

/-- The name of the node where messages begin. -/
def start : PyStr := ['I', 'n', 'i', 't', 'i', 'a', 'l']

/-- The name of the node where messages end. -/
def finish : PyStr := ['F', 'i', 'n', 'a', 'l']

/-- The links that are drawn: a message without links has an arrow from the initial to the final node. -/
def Message.drawn (m : Message) : List Link :=
  match m.structure_ with
  | [] => [⟨⟨[start]⟩, ⟨[finish]⟩, .tru, .undefined, .undefined⟩]
  | ls => ls

/-- The names of the nodes of fields. -/
def Message.IsField (m : Message) (a : PyStr) : Prop := a = start ∨ a = finish ∨ ∃ f ∈ m.fields, f.str = a

/-- The text for the size of the target of a link. -/
inductive SizeText (m : Message) (l : Link) : PyStr → Prop
  /-- The size given at the link. -/
  | given : l.size ≠ .undefined → SizeText m l l.size.str
  /-- The final node has size 0. -/
  | final : l.size = .undefined → l.target.key = [['f', 'i', 'n', 'a', 'l']] → SizeText m l ['0']
  /-- The size of the scalar type of the field. -/
  | scalar {f s} : l.size = .undefined → l.target.key ≠ [['f', 'i', 'n', 'a', 'l']] → (f, some s) ∈ m.types → f.key = l.target.key →
      SizeText m l s.str
  /-- The size of another type. -/
  | other {f} : l.size = .undefined → l.target.key ≠ [['f', 'i', 'n', 'a', 'l']] → (f, none) ∈ m.types → f.key = l.target.key →
      SizeText m l "__UNDEFINED__".toList

/-- The label of a link: condition, size and first bit in parentheses. -/
def Shows (m : Message) (l : Link) (label : PyStr) : Prop :=
  ∃ c s f sep1 sep2, label = ['('] ++ c ++ [',', sep1] ++ s ++ [',', sep2] ++ f ++ [')'] ∧ sep1 ∈ [' ', '\n'] ∧ sep2 ∈ [' ', '\n'] ∧
    (l.condition = .tru ∧ c = ['⊤'] ∨ l.condition ≠ .tru ∧ c = l.condition.str) ∧ SizeText m l s ∧
    (l.first = .undefined ∧ f = ['⋆'] ∨ l.first ≠ .undefined ∧ f = l.first.str)

/-- What the constructor of messages ensures (C14), for names that are always spelled in the same way: links lead from and to fields, and all
fields have types. -/
def Message.Closed (m : Message) : Prop :=
  (∀ l ∈ m.structure_, m.IsField l.source.str ∧ m.IsField l.target.str) ∧
  ∀ l ∈ m.structure_, l.target.key = [['f', 'i', 'n', 'a', 'l']] ∨
    (∃ f ∈ m.fields, f.key = l.target.key) ∧ ∃ t ∈ m.types, t.1.key = l.target.key

/-- No field is named like the nodes for the labels. -/
def Message.NoClash (m : Message) : Prop := ∀ f ∈ m.fields, ∀ x, f.str ≠ "intermediate_".toList ++ x

/-! ## Sessions -/

variable {M : Type}

/-- The state declares the name. -/
def Declares (st : FullState M) (i : ID) : Prop := ∃ d ∈ st.declarations, d.id.key = i.key

/-- A condition or an assignment of the state uses a name that the state does not declare. -/
def Reads (h : List PyStr → Int) (st : FullState M) (i : ID) : Prop :=
  ((∃ t ∈ st.transitions, ∃ v ∈ Verif.variables h t.2, v.id = i) ∨ ∃ j e, Action.assign j e ∈ st.actions ∧ ∃ v ∈ e.variables h, v.id = i) ∧
  ¬ Declares st i

/-- An action of the state changes a name that the state does not declare. -/
def Writes (st : FullState M) (i : ID) : Prop := (∃ a ∈ st.actions, a.id = i) ∧ ¬ Declares st i

/-- A name used by a state. -/
def Uses (h : List PyStr → Int) (st : FullState M) (i : ID) : Prop := Reads h st i ∨ Writes st i

/-- The names of states are simple names, and names are always spelled in the same way. -/
structure Regular (h : List PyStr → Int) (s : FullSession M) : Prop where
  states : ∀ st ∈ s.states, st.identifier.Valid ∧ st.identifier.parts.length = 1
  targets : ∀ st ∈ s.states, ∀ t ∈ st.transitions, t.1.Valid ∧ t.1.parts.length = 1
  spelling : ∀ st ∈ s.states, ∀ st' ∈ s.states, ∀ i j, Uses h st i → Uses h st' j → i.key = j.key → i.str = j.str

end Verif.Dot
