import Verif.Model.Meta
import Verif.Model.Extension

/-!
# Generated extensions

The struct that `protoc-gen-hpp` writes for an extension: `format_extension`
(`src/protoc-plugin/hpp_generator.cpp` 1736-1788), with the types, default values and options of
`Verif/Model/Meta.lean`.  It has one member, `value`, and a `pb_meta` with the entry of that member.
Names and the text of literals are left out, as in `Verif/Model/Meta.lean`.
-/

namespace HppProto
namespace Meta

/-- `default_value_template_arg` of an extension (`set_default_value`, `hpp_generator.cpp` 320-349;
`resolve_enum_field`, 830-844): what the schema says, or the first number of an enum.  `dflt f` is the
value of the `default_value` of the definition `f`. -/
def extDefault (dflt : FieldProto → Option Val) (p : Pool) (f : FieldDesc) : Option Val :=
  match dflt f.proto with
  | some v => some v
  | none => if f.proto.label == 1 then (enumOf p f).bind firstNumber else none

/-- A string from a literal: its bytes up to the first zero, as for every `const char *`. -/
def fromLiteral : Val → Val
  | .bytes s => .bytes (s.takeWhile (· ≠ 0))
  | v => v

/-- The initializer of `value` (`hpp_generator.cpp` 1772-1776).  For strings `default_value` is a bare literal
(360-366), for bytes a `bytes_literal` (352-358). -/
def extInit (dflt : FieldProto → Option Val) (p : Pool) (f : FieldDesc) : Option Val :=
  if f.proto.type = 9 then (extDefault dflt p f).map fromLiteral else extDefault dflt p f

/-- `meta_options` (`hpp_generator.cpp` 1655-1679) of an extension: `set_presence_rule` is not called for it, so
`is_cpp_optional` stays `false` (244); with an extendee, `emit_closed_enum_validation` (1638-1653) is
`is_closed_enum`. -/
def extOptions (p : Pool) (f : FieldDesc) : Opts :=
  let presence := f.bits.required || f.proto.oneofIndex.isSome || (isClosedEnum p f && f.extendee.isSome && f.proto.label == 1)
  { presence := presence
    packed := !presence && f.bits.packed
    group := f.bits.delimited
    utf8 := !f.bits.delimited && f.bits.utf8
    closed := !f.bits.delimited && !f.bits.utf8 && isClosedEnum p f }

/-- How the values of an extension are written. -/
def extKind (p : Pool) (f : FieldDesc) : Kind := valueKind p (cppType f) (extOptions p f)

/-- The struct of an extension (`format_extension`, `hpp_generator.cpp` 1736-1788), as reader (`writing = false`) or
writer use it.  Without an extendee a null pointer is dereferenced (1745).  Simplification: the value type of an
extension whose type is a map entry, which protoc rejects, is a repeated field. -/
def extStruct (dflt : FieldProto → Option Val) (p : Pool) (fresh : Nat → Msg) (writing : Bool) (f : FieldDesc) : Res MsgD :=
  match f.extendee with
  | none => .ub
  | some _ =>
    let k := extKind p f
    let o := extOptions p f
    let init := (extInit dflt p f).getD (zeroOf fresh k)
    .ok { slots := [.field (BitVec.ofInt 32 f.proto.number) k (
            if f.proto.label = 3 then .repeated o.packed
            else if o.presence then .always init
            else .implicit (if writing then (extDefault dflt p f).getD (zeroOf fresh k) else init))]
          unk := .none }

/-- The number under which the struct of the extension at position `j` in the table of fields is found in `library`. -/
def extId (p : Pool) (j : Nat) : Nat := p.messages.length + j

/-- The classes of a pool together with the structs of its extensions. -/
def library (S : Setup) (dflt : FieldProto → Option Val) (p : Pool) (fresh : Nat → Msg) (utf8 : List Byte → Bool)
    (writing : Bool) : Cfg where
  schema id :=
    if id < p.messages.length then (classes S p fresh utf8 writing).schema id
    else match p.fields[id - p.messages.length]? with
      | none => { slots := [], unk := .none }
      | some f => match extStruct dflt p fresh writing f with
        | .ok D => D
        | _ => { slots := [], unk := .none }
  utf8 := utf8

end Meta
end HppProto
