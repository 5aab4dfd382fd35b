import Verif.Model.Header
import Verif.Model.Layout

/- How values of the types of the C header and of the Rust signatures are passed, and which
expressions a C compiler accepts. -/

namespace ShogiCore

/-! ### Passing values -/

/-- The elementary parts of values. -/
inductive Scalar
  | bool
  | int (signed : Bool) (bytes : Nat)
  /-- a pointer, through which the callee may write if `rw` -/
  | ptr (rw : Bool) (pointee : String)
  deriving DecidableEq, Repr

/-- What a calling convention looks at: whether it is a struct or array, size and alignment, and
which elementary parts are at which offsets. -/
structure Abi where
  aggregate : Bool
  ty : CTy
  parts : List (Nat × Scalar)
  deriving DecidableEq, Repr

namespace Abi

/-- No value. -/
def void : Abi := ⟨false, ⟨0, 1⟩, []⟩
/-- One elementary value. -/
def scalar (t : CTy) (s : Scalar) : Abi := ⟨false, t, [(0, s)]⟩
/-- `n` values in a row. -/
def arr (n : Nat) (a : Abi) : Abi :=
  ⟨true, .array n a.ty,
    (List.range n).flatMap fun i => a.parts.map fun p => (i * a.ty.size + p.1, p.2)⟩
/-- A struct with these members. -/
def struct (as : List Abi) : Abi :=
  ⟨true, .struct (as.map Abi.ty),
    ((fieldOffsets 0 (as.map Abi.ty)).1.zip as).flatMap fun (o, a) =>
      a.parts.map fun p => (o + p.1, p.2)⟩

end Abi

/-- What a pointer of the header points to. -/
def HType.pointee : HType → Option String
  | .struct s => some s
  | .u8 => some "u8"
  | _ => none

/-- How a C compiler passes a value of a type of the header; `none` for incomplete types.  The
number bounds the depth of definitions. -/
def HType.abi [Target] : Nat → HType → Option Abi
  | 0, _ => none
  | d + 1, t =>
    match t with
    | .void => some .void
    | .bool => some (.scalar .u8 .bool)
    | .u8 => some (.scalar .u8 (.int false 1))
    | .u16 => some (.scalar .u16 (.int false 2))
    | .u64 => some (.scalar .u64 (.int false 8))
    | .i8 => some (.scalar .u8 (.int true 1))
    | .named n => (typedefs.lookup n).bind (HType.abi d)
    | .struct s => (structs.lookup s).bind fun ms =>
        (ms.mapM fun m => HType.abi d m.2).map .struct
    | .arr n t => (HType.abi d t).map (.arr n)
    | .ptr ro t => t.pointee.map fun s => .scalar ⟨8, 8⟩ (.ptr (!ro) s)

/-- What a reference or raw pointer points to. -/
def RType.pointee : RType → Option String
  | .path n => some n
  | .u8 => some "u8"
  | .uninit t => t.pointee
  | _ => none

/-- The types for which the language guarantees that `Option` takes no extra space and encodes
`None` as zero. -/
def RType.niche : RType → Bool
  | .nonzero8 | .nonzero16 => true
  | .path n => rustTypes.lookup n == some (.transparent .nonzero8) ||
      rustTypes.lookup n == some (.transparent .nonzero16)
  | _ => false

/-- How rustc passes a value of a type in an `extern "C"` function; `none` if that is not
defined. -/
def RType.abi [Target] : Nat → RType → Option Abi
  | 0, _ => none
  | d + 1, t =>
    match t with
    | .unit => some .void
    | .bool => some (.scalar .u8 .bool)
    | .u8 | .nonzero8 => some (.scalar .u8 (.int false 1))
    | .u16 | .nonzero16 => some (.scalar .u16 (.int false 2))
    | .u64 => some (.scalar .u64 (.int false 8))
    | .i8 => some (.scalar .u8 (.int true 1))
    | .path n => (rustTypes.lookup n).bind fun
        | .enum8 => some (.scalar .u8 (.int false 1))
        | .transparent t => RType.abi d t
        | .reprC fs => (fs.mapM fun f => RType.abi d f.2).map .struct
        | .reprRust => none
    | .option t => if t.niche then RType.abi d t else none
    | .uninit t => RType.abi d t
    | .arr n t => (RType.abi d t).map (.arr n)
    | .ref rw t => t.pointee.map fun s => .scalar ⟨8, 8⟩ (.ptr rw s)
    | .raw t => t.pointee.map fun s => .scalar ⟨8, 8⟩ (.ptr true s)

/-- The C type is written as the Rust type: the same type names, a `const` pointer for `&`. -/
def HType.mirrors : HType → RType → Bool
  | .void, .unit | .bool, .bool | .u8, .u8 | .u16, .u16 | .u64, .u64 | .i8, .i8 => true
  | .named n, .path m => n == m
  | .struct n, .path m => n == m
  | .arr n t, .arr m r => n == m && t.mirrors r
  | .ptr ro t, .ref rw (.uninit r) => ro == !rw && t.mirrors r
  | .ptr ro t, .ref rw r => ro == !rw && t.mirrors r
  | .ptr ro t, .raw r => ro == false && t.mirrors r
  | _, _ => false

/-- A member of a struct of the header is that field of the Rust struct; a C identifier cannot
begin with a digit, so the fields of tuple structs get an underscore. -/
def mirrorsField (m : String × HType) (f : String × RType) : Bool :=
  (m.1 == f.1 || m.1 == "_" ++ f.1) && m.2.mirrors f.2

/-! ### C expressions -/

/-- A type with the typedef names replaced. -/
def HType.norm : HType → HType
  | .named n => (typedefs.lookup n).getD (.named n)
  | .arr n t => .arr n t.norm
  | .ptr ro t => .ptr ro t.norm
  | t => t

/-- Complete object types: those of which there can be variables and values. -/
def HType.complete : HType → Bool
  | .void => false
  | .named n => match typedefs.lookup n with
    | some (.struct s) => (structs.lookup s).isSome
    | some _ => true
    | none => false
  | .struct s => (structs.lookup s).isSome
  | .arr _ t => t.complete
  | _ => true

/-- The type is a pointer type or an array of pointers (no struct of the header has a pointer in
it). -/
def HType.pointers : HType → Bool
  | .ptr _ _ => true
  | .arr _ t => t.pointers
  | _ => false

/-- The types of the values a C program can get at without casts, null pointers and uninitialised
pointers: by variables (of non-pointer types; pointer variables hold values of expressions), their
addresses, member access, indexing, dereferencing, and calls of the functions of the header.
Integer constants and conversions are covered by variables. -/
inductive CHas : HType → Prop
  | var {t} : t.complete → t.pointers = false → CHas t
  | addr {t} : t.complete → t.pointers = false → CHas (.ptr false t)
  | const {t} : CHas (.ptr false t) → CHas (.ptr true t)
  | deref {ro t} : CHas (.ptr ro t) → t.complete → CHas t
  | member {s ms f t} : CHas (.struct s) → (s, ms) ∈ structs → (f, t) ∈ ms → CHas t
  | index {n t} : CHas (.arr n t) → CHas t
  | conv {t t'} : CHas t → t.norm = t'.norm → CHas t'
  | call {h} : h ∈ prototypes → (∀ a ∈ h.args, CHas a) → h.ret.complete → CHas h.ret

/-- A C program can call the function: there are values for all parameters, and the result, if any,
has a complete type. -/
def HSig.Callable (h : HSig) : Prop :=
  (∀ a ∈ h.args, CHas a) ∧ (h.ret = .void ∨ h.ret.complete)

/-- The struct tags in a type. -/
def HType.tags : HType → List String
  | .struct s => [s]
  | .arr _ t => t.tags
  | .ptr _ t => t.tags
  | _ => []

/-- The struct tags in a prototype. -/
def HSig.tags (h : HSig) : List String := h.ret.tags ++ h.args.flatMap HType.tags

/-- The ordinary identifiers that the header declares (typedef names, enumerators, functions) and
its macros: they share one name space, or would be replaced by the preprocessor. -/
def headerIdents : List String :=
  typedefs.map Prod.fst ++ enums.flatMap (fun e => e.2.map Prod.fst) ++
    prototypes.map HSig.name ++ defines.map Prod.fst

/-- The tags that the header declares. -/
def headerTags : List String :=
  enums.map Prod.fst ++ typedefs.flatMap fun t => t.2.tags

/-- The value of an enumerator. -/
def enumerator (e n : String) : Option Nat := (enums.lookup e).bind fun l => l.lookup n

/-- The enumeration `e` of the header names the variants of a Rust enum with their values and
nothing else, and its values are exactly the bytes that are a variant. -/
structure EnumAgrees {α : Type} (e : String) (ident : α → String) (value : α → U8)
    (decode : U8 → Res α) : Prop where
  named : ∀ a, enumerator e (ident a) = some (value a).toNat
  only : ∀ n v, enumerator e n = some v → ∃ a, n = ident a
  valid : ∀ v : U8, (∃ n, enumerator e n = some v.toNat) ↔ decode v ≠ .ub

end ShogiCore
