import Verif.Common.Model

/-! # Names declared in the package of scalar types: `__create_type` (`rflx/generator/generator.py:2425-2445`) and what it uses

Only names, parameter types and result types of the declarations are modelled; their meaning is in `Generator/Scalar`. Types are referred to by their name
in the package, as all types of the declarations belong to the same package (the prefix and package are left out). -/

namespace Verif.Generator.DeclNames
open Verif

/-- The kinds of scalar types; literals as text. -/
inductive Kind
  | modular
  | range
  | enumeration (literals : List PyStr) (alwaysValid : Bool)

/-- A scalar type: name and kind. -/
structure Scalar where
  name : PyStr
  kind : Kind

/-- A declaration: a type, or a function with parameter types and result type. An enumeration literal is a function without parameters (Ada RM 3.5.1). -/
inductive Entity
  | type (name : PyStr)
  | function (name : PyStr) (parameters : List PyStr) (result : PyStr)

/-- `"_Base"`, `rflx/generator/common.py:656`. -/
def baseSuffix : PyStr := ['_', 'B', 'a', 's', 'e']
/-- `"_Enum"`, `rflx/generator/common.py:670`. -/
def enumSuffix : PyStr := ['_', 'E', 'n', 'u', 'm']
/-- `"Unreachable_"`, `rflx/generator/generator.py:3041`. -/
def unreachablePrefix : PyStr := ['U', 'n', 'r', 'e', 'a', 'c', 'h', 'a', 'b', 'l', 'e', '_']
/-- `"Valid"`, `rflx/generator/generator.py:2905`. -/
def validText : PyStr := ['V', 'a', 'l', 'i', 'd']
/-- `"To_Base"`, `rflx/generator/generator.py:2589,2643,2935`. -/
def toBaseText : PyStr := ['T', 'o', '_', 'B', 'a', 's', 'e']
/-- `"To_Actual"`, `rflx/generator/generator.py:2609,2619,2945`. -/
def toActualText : PyStr := ['T', 'o', '_', 'A', 'c', 't', 'u', 'a', 'l']
/-- `"Boolean"`, `rflx/generator/generator.py:2906`. -/
def booleanName : PyStr := ['B', 'o', 'o', 'l', 'e', 'a', 'n']

/-- `base_type_name`, `full_base_type_name`, `rflx/generator/common.py:652-666`, for a type that is not predefined. -/
def baseName (t : Scalar) : PyStr :=
  match t.kind with
  | .modular => t.name
  | _ => t.name ++ baseSuffix

/-- `enum_name`, `full_enum_name`, `rflx/generator/common.py:669-674`. -/
def enumName (t : Scalar) : PyStr := t.name ++ enumSuffix

/-- `unreachable_function_name(scalar_type.full_name)`, `rflx/generator/generator.py:2920,3040-3041`. -/
def unreachableName (package : PyStr) (t : Scalar) : PyStr :=
  unreachablePrefix ++ flatName (ID.str ⟨[package, t.name]⟩)

/-- `modular_types`, `range_types`, `enumeration_types`, `rflx/generator/generator.py:2964-3019`. -/
def types (t : Scalar) : List Entity :=
  match t.kind with
  | .modular => [.type t.name]
  | .range => [.type (baseName t), .type t.name]
  | .enumeration ls av =>
    let e := if av then enumName t else t.name
    [.type (baseName t), .type e] ++ ls.map (fun l => .function l [] e) ++ if av then [.type t.name] else []

/-- `__integer_functions`, `__integer_conversion_functions` and `__enumeration_functions`, `rflx/generator/generator.py:2505-2672,2900-2910,2931-2954`. -/
def functions (t : Scalar) : List Entity :=
  let valid := Entity.function validText [baseName t] booleanName
  let toBase := Entity.function toBaseText [t.name] (baseName t)
  let toActual := Entity.function toActualText [baseName t] t.name
  match t.kind with
  | .enumeration _ true =>
    [valid, .function toBaseText [enumName t] (baseName t), .function toActualText [enumName t] t.name, toActual, toBase]
  | _ => [valid, toBase, toActual]

/-- `__create_type` for a scalar type, `rflx/generator/generator.py:2425-2441,2912-2929`. -/
def declarations (package : PyStr) (t : Scalar) : List Entity :=
  types t ++ [.function (unreachableName package t) [] t.name] ++ functions t

/-- The declarations of all scalar types of a package. -/
def packageDeclarations (package : PyStr) (ts : List Scalar) : List Entity := ts.flatMap (declarations package)

end Verif.Generator.DeclNames
