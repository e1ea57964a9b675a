import Verif.Ada.StmtGrammar

/-! # Reading declarations of Ada

An independent specification: the syntax of declarations (ARM 3, 6, 7, 8, 10, 12, 13) on top of that of expressions and statements, in Backus-Naur
form. Nothing here refers to `rflx/ada.py`. The grammar is left-factored: alternatives with a common beginning are split where they differ.
Left out: everything that does not occur in generated code (tasks, exceptions, discriminant constraints, abstract subprograms, ...), variant
parts inside of variants, and rules of legality (e.g. that no body is declared in the specification of a package, that the name after `end` is
the name of the unit). -/

namespace Verif.Ada
open Verif

/-! ## Syntax trees -/

/-- What a node of a syntax tree stands for. -/
inductive Tag
  | names | identifiers | default | constant
  | aspects | pre | post | contractCases | contractCase | depends | dependency | noInputs | inputs | dynamicPredicate | size
  | defaultInitialCondition | sparkMode | ghost | «import» | annotate
  | parameters | parameter | inMode | outMode | inOutMode | accessMode | accessConstantMode
  | procedure | function | returnType | subprogram | declared | renamed | instance | expressionFunction | body
  | generic | formals | formalSubprogram | formalPackage | box
  | package | packageBody | privatePart | use | useType | pragma | withClause
  | object | type | subtype | discriminants | discriminant | modular | range | enumeration | discrete | derived | privateType
  | array | unconstrained | access | record | nullComponent | component | variants | variant | representation | literal
deriving DecidableEq, Repr

/-- Syntax trees of declarations: names (in lower case), expressions, sequences of statements, nodes. -/
inductive DTree (ε σ : Type) where
  | name (ps : List PyStr)
  | expr (e : ε)
  | stmts (s : σ)
  | node (t : Tag) (cs : List (DTree ε σ))

/-- The trees of a text. -/
abbrev DTrees := List (DTree Tree STree)

/-! ## Backus-Naur form -/

/-- Right-hand sides of rules: nothing, a lexical element, an identifier, a name `x.y.z`, an expression, a simple expression, a choice, choices
separated by `|`, statements, declarations; a part that gets a node in the tree, one part after another, an alternative, repetition, repetition
with separators. -/
inductive G
  | empty
  | tok (k : Tok)
  | ident | name | expr | simple | choice | choices | stmts | items
  | node (t : Tag) (g : G)
  | seq (a b : G)
  | or (a b : G)
  | many (g : G)
  | list (g : G) (k : Tok)

infixr:60 " ⬝ " => G.seq
infixr:50 " ∣∣ " => G.or

/-- The elements of a name. -/
def pathToks : List PyStr → List Tok
  | [] => []
  | [p] => [.ident p]
  | p :: q :: ps => .ident p :: .dot :: pathToks (q :: ps)

/-- Any number of phrases. -/
inductive Many (P : List Tok → DTrees → Prop) : List Tok → DTrees → Prop
  | nil : Many P [] []
  | cons {ts us cs ds} : P ts cs → Many P us ds → Many P (ts ++ us) (cs ++ ds)

/-- Phrases with separators. -/
inductive SepBy (P : List Tok → DTrees → Prop) (k : Tok) : List Tok → DTrees → Prop
  | one {ts cs} : P ts cs → SepBy P k ts cs
  | cons {ts us cs ds} : P ts cs → SepBy P k us ds → SepBy P k (ts ++ k :: us) (cs ++ ds)

/-- The phrases of a right-hand side with their trees; `D` are declarations. -/
def G.reads (D : List Tok → DTrees → Prop) : G → List Tok → DTrees → Prop
  | .empty, ts, cs => ts = [] ∧ cs = []
  | .tok k, ts, cs => ts = [k] ∧ cs = []
  | .ident, ts, cs => ∃ x, ts = [.ident x] ∧ cs = [.name [x]]
  | .name, ts, cs => ∃ ps, ps ≠ [] ∧ ts = pathToks ps ∧ cs = [.name ps]
  | .expr, ts, cs => ∃ t, Reads .expression ts t ∧ cs = [.expr t]
  | .simple, ts, cs => ∃ t, Reads .simple ts t ∧ cs = [.expr t]
  | .choice, ts, cs => ∃ t, Reads .choice ts t ∧ cs = [.expr t]
  | .choices, ts, cs => ∃ es, Reads .choices ts (.agg es) ∧ cs = es.map .expr
  | .stmts, ts, cs => ∃ t, SReads .sequence ts t ∧ cs = [.stmts t]
  | .items, ts, cs => D ts cs
  | .node t g, ts, cs => ∃ ds, g.reads D ts ds ∧ cs = [.node t ds]
  | .seq a b, ts, cs => ∃ us vs ds es, a.reads D us ds ∧ b.reads D vs es ∧ ts = us ++ vs ∧ cs = ds ++ es
  | .or a b, ts, cs => a.reads D ts cs ∨ b.reads D ts cs
  | .many g, ts, cs => Many (g.reads D) ts cs
  | .list g k, ts, cs => SepBy (g.reads D) k ts cs

/-! ## The grammar -/

namespace G

/-- A reserved word. -/
def word (w : String) : G := tok (kw w)

/-- A part that may be missing. -/
def opt (g : G) : G := g ∣∣ empty

/-- `defining_identifier_list`, ARM 3.3.1. -/
def identifiers : G := node .identifiers (list ident .comma)

/-- `:= default_expression`, ARM 3.7. -/
def initial : G := opt (node .default (tok .assign ⬝ expr))

/-- An aspect that is an expression, ARM 13.1.1. -/
def valued (t : Tag) (w : String) : G := node t (tok (.ident w.toList) ⬝ tok .arrow ⬝ expr)

/-- An aspect without definition, ARM 13.1.1. -/
def flag (t : Tag) (w : String) : G := node t (tok (.ident w.toList))

/-- An aspect that is a list in parentheses. -/
def listed (t : Tag) (w : String) (g : G) : G := node t (tok (.ident w.toList) ⬝ tok .arrow ⬝ tok .lpar ⬝ list g .comma ⬝ tok .rpar)

/-- The aspects: ARM 13.1.1, 6.1.1 (`Pre`, `Post`), 3.2.4, 7.3.3, 13.3, B.1; SPARK RM 6.1.3 (`Contract_Cases`), 6.1.5 (`Depends`). -/
def aspect : G :=
  valued .pre "pre" ∣∣ valued .post "post" ∣∣ valued .dynamicPredicate "dynamic_predicate" ∣∣ valued .size "size" ∣∣
  valued .defaultInitialCondition "default_initial_condition" ∣∣ flag .sparkMode "spark_mode" ∣∣ flag .ghost "ghost" ∣∣ flag .import "import" ∣∣
  listed .annotate "annotate" ident ∣∣
  listed .contractCases "contract_cases" (node .contractCase (choice ⬝ tok .arrow ⬝ expr)) ∣∣
  listed .depends "depends" (node .dependency (name ⬝ tok .arrow ⬝
    (node .noInputs (word "null") ∣∣ node .inputs name ∣∣ node .inputs (tok .lpar ⬝ list name .comma ⬝ tok .rpar))))

/-- `aspect_specification`, ARM 13.1.1. -/
def someAspects : G := node .aspects (word "with" ⬝ list aspect .comma)

/-- An optional `aspect_specification`. -/
def aspects : G := opt someAspects

/-- `mode`, ARM 6.1, and the beginning of an access definition, ARM 3.10. -/
def mode : G :=
  node .outMode (word "out") ∣∣ node .inOutMode (tok .in_ ⬝ word "out") ∣∣
  word "access" ⬝ (node .accessConstantMode (word "constant") ∣∣ node .accessMode empty) ∣∣ node .inMode empty

/-- `parameter_profile` without result, ARM 6.1. -/
def parameters : G :=
  opt (node .parameters (tok .lpar ⬝ list (node .parameter (identifiers ⬝ tok .colon ⬝ mode ⬝ name ⬝ initial)) .semi ⬝ tok .rpar))

/-- `subprogram_specification`, ARM 6.1. In an instantiation there is neither a profile nor a result. -/
def specification : G :=
  node .procedure (word "procedure" ⬝ name ⬝ parameters) ∣∣
  node .function (word "function" ⬝ name ⬝ parameters ⬝ opt (node .returnType (word "return" ⬝ name)))

/-- The actual parameters of an instantiation, ARM 12.3. -/
def actuals : G := opt (node .names (tok .lpar ⬝ list name .comma ⬝ tok .rpar))

/-- What follows `is` in a `subprogram_body`, ARM 6.3. -/
def block : G := node .body (items ⬝ word "begin" ⬝ stmts ⬝ word "end" ⬝ name ⬝ tok .semi)

/-- `subprogram_declaration` (ARM 6.1), `subprogram_renaming_declaration` (8.5.4), `generic_instantiation` (12.3),
`expression_function_declaration` (6.8), `subprogram_body` (6.3). -/
def subprogram : G :=
  node .subprogram (specification ⬝
    (node .declared (tok .semi) ∣∣ node .renamed (word "renames" ⬝ name ⬝ tok .semi) ∣∣
      someAspects ⬝ (node .declared (tok .semi) ∣∣ word "is" ⬝ block) ∣∣
      word "is" ⬝ (node .instance (word "new" ⬝ name ⬝ actuals ⬝ tok .semi) ∣∣
        node .expressionFunction (tok .lpar ⬝ expr ⬝ tok .rpar ⬝ aspects ⬝ tok .semi) ∣∣ block)))

/-- `known_discriminant_part`, ARM 3.7. -/
def discriminants : G :=
  opt (node .discriminants (tok .lpar ⬝ list (node .discriminant (identifiers ⬝ tok .colon ⬝ name ⬝ initial)) .semi ⬝ tok .rpar))

/-- `range simple_expression .. simple_expression`, ARM 3.5. -/
def bounds : G := node .range (tok .range ⬝ simple ⬝ tok .dots ⬝ simple)

/-- `component_declaration`, ARM 3.8. -/
def component : G := node .component (identifiers ⬝ tok .colon ⬝ name ⬝ initial ⬝ tok .semi)

/-- `null;` in a component list. -/
def nullComponent : G := node .nullComponent (word "null" ⬝ tok .semi)

/-- `variant`, ARM 3.8.1. -/
def variant : G := node .variant (word "when" ⬝ choices ⬝ tok .arrow ⬝ (nullComponent ∣∣ component ⬝ many component))

/-- `variant_part`, ARM 3.8.1. -/
def variantPart : G := node .variants (word "case" ⬝ name ⬝ word "is" ⬝ variant ⬝ many variant ⬝ word "end" ⬝ word "case" ⬝ tok .semi)

/-- `type_definition` (ARM 3.2.1, 3.5.1, 3.5.4, 3.6, 3.8, 3.4, 3.10), `private` (7.3), and the formal discrete types (12.5.2). -/
def typeDefinition : G :=
  node .modular (tok .mod ⬝ expr) ∣∣ bounds ∣∣ tok .lpar ⬝ (node .discrete (tok .box) ∣∣ node .enumeration (list ident .comma)) ⬝ tok .rpar ∣∣
  node .derived (word "new" ⬝ name) ∣∣ node .privateType (word "private") ∣∣
  node .array (word "array" ⬝ tok .lpar ⬝ name ⬝ opt (node .unconstrained (tok .range ⬝ tok .box)) ⬝ tok .rpar ⬝ tok .of ⬝ name) ∣∣
  node .access (word "access" ⬝ name) ∣∣
  node .record (word "record" ⬝ (nullComponent ∣∣ variantPart ∣∣ component ⬝ many component ⬝ opt variantPart) ⬝ word "end" ⬝ word "record")

/-- `full_type_declaration` (ARM 3.2.1), `private_type_declaration` (7.3), `subtype_declaration` (3.2.2). -/
def typeDeclaration : G :=
  node .type (word "type" ⬝ ident ⬝ discriminants ⬝ word "is" ⬝ typeDefinition ⬝ aspects ⬝ tok .semi) ∣∣
  node .subtype (word "subtype" ⬝ ident ⬝ word "is" ⬝ name ⬝ opt bounds ⬝ tok .semi)

/-- `enumeration_representation_clause`, ARM 13.4. -/
def representation : G :=
  node .representation (tok .for_ ⬝ ident ⬝ word "use" ⬝ tok .lpar ⬝ list (node .literal (ident ⬝ tok .arrow ⬝ expr)) .comma ⬝ tok .rpar ⬝ tok .semi)

/-- `object_declaration`, ARM 3.3.1. -/
def object : G :=
  node .object (identifiers ⬝ tok .colon ⬝ opt (node .constant (word "constant")) ⬝ name ⬝ initial ⬝ aspects ⬝ tok .semi)

/-- `use_clause`, ARM 8.4. -/
def useClause : G := word "use" ⬝ (node .useType (word "type" ⬝ list name .comma) ∣∣ node .use (list name .comma)) ⬝ tok .semi

/-- `pragma`, ARM 2.8. -/
def pragma : G := node .pragma (word "pragma" ⬝ ident ⬝ opt (tok .lpar ⬝ list expr .comma ⬝ tok .rpar) ⬝ tok .semi)

/-- What follows `is` in a `package_specification`, ARM 7.1. -/
def packageRest : G := items ⬝ opt (node .privatePart (word "private" ⬝ items)) ⬝ word "end" ⬝ name ⬝ tok .semi

/-- `package_declaration` (ARM 7.1), `package_body` (7.2), `generic_instantiation` (12.3). -/
def package : G :=
  word "package" ⬝
    (node .packageBody (word "body" ⬝ name ⬝ aspects ⬝ word "is" ⬝ items ⬝ word "end" ⬝ name ⬝ tok .semi) ∣∣
      node .package (name ⬝
        (someAspects ⬝ word "is" ⬝ packageRest ∣∣
          word "is" ⬝ (node .instance (word "new" ⬝ name ⬝ actuals ⬝ tok .semi) ∣∣ packageRest))))

/-- `generic_formal_parameter_declaration`, ARM 12.4-12.7. -/
def formal : G :=
  word "with" ⬝
    (node .formalSubprogram (specification ⬝ tok .semi) ∣∣
      node .formalPackage (word "package" ⬝ name ⬝ word "is" ⬝ word "new" ⬝ name ⬝ tok .lpar ⬝
        (node .box (tok .box) ∣∣ node .names (list name .comma)) ⬝ tok .rpar ⬝ tok .semi)) ∣∣
  typeDeclaration

/-- `generic_declaration`, ARM 12.1. -/
def generic : G := node .generic (word "generic" ⬝ node .formals (many formal) ⬝ (subprogram ∣∣ package))

/-- `declarative_item`, ARM 3.11. -/
def item : G := useClause ∣∣ pragma ∣∣ object ∣∣ typeDeclaration ∣∣ representation ∣∣ subprogram ∣∣ package ∣∣ generic

/-- `context_item`, ARM 10.1.2. -/
def contextItem : G := node .withClause (word "with" ⬝ list name .comma ⬝ tok .semi) ∣∣ useClause ∣∣ pragma

/-- `compilation_unit`, ARM 10.1.1. -/
def unit : G := many contextItem ⬝ (package ∣∣ generic)

end G

/-- Declarations that are nested less than `n` times. -/
def itemsTo : Nat → List Tok → DTrees → Prop
  | 0, _, _ => False
  | n + 1, ts, cs => (G.many G.item).reads (itemsTo n) ts cs

/-- A text is a phrase of the grammar. -/
def Phrase (g : G) (ts : List Tok) (cs : DTrees) : Prop := ∃ n, g.reads (itemsTo n) ts cs

/-- `Phrase G.items`: declarations. -/
abbrev Declarations : List Tok → DTrees → Prop := Phrase .items

/-- `Phrase G.unit`: a compilation unit. -/
abbrev CompilationUnit : List Tok → DTrees → Prop := Phrase .unit

end Verif.Ada
