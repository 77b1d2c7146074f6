import Verif.Model.Serialize
/-! A message type and a message used to show that the hypotheses of the theorems can be met:
implicit, optional, packed, map, group and oneof members, nested two levels deep. -/
namespace HppProto.Props
open HppProto

/-- ```
message M { int32 a = 1; optional string b = 2; repeated sint32 c = 3 [packed];
  map<uint32, string> d = 4; optional group G = 5 { float f = 1; }
  oneof o { bool x = 6; M y = 7; } unknown fields kept }
```
-/
def demoCfg : Cfg where
  utf8 bs := bs.all (fun b => !b.msb)
  schema
    | 0 => { slots := [
        .field 1 (.scalar (.varint .i32)) (.implicit (.num 0)),
        .field 2 (.scalar (.str true)) .optional,
        .field 3 (.scalar (.varint .s32)) (.repeated true),
        .field 4 (.msg 1) (.map true),
        .field 5 (.group 2) .optional,
        .oneof [(6, .scalar .bool), (7, .msg 0)]], unk := .bytes }
    | 1 => { slots := [
        .field 1 (.scalar (.varint .u32)) (.always (.num 0)),
        .field 2 (.scalar (.str true)) (.always (.bytes []))], unk := .none, isEntry := true }
    | 2 => { slots := [.field 1 (.scalar (.fixed32 true)) (.implicit (.num 0))], unk := .none }
    | _ => { slots := [], unk := .none }

/-- `{a: -2, b: "hi", c: [1, -1], d: {7: "x"}, G {f: 1.0}, y { a: 5 }}` with one unknown
record. -/
def demoMsg : Msg := ⟨[
    [(0, .num (BitVec.ofInt 64 (-2)))],
    [(0, .bytes [0x68, 0x69])],
    [(0, .num 1), (0, .num (BitVec.ofInt 64 (-1)))],
    [(0, .msg ⟨[[(0, .num 7)], [(0, .bytes [0x78])]], []⟩)],
    [(0, .msg ⟨[[(0, .num 0x3f800000)]], []⟩)],
    [(1, .msg ⟨[[(0, .num 5)], [], [], [], [], []], []⟩)]],
  [(0, [0x78, 0x05])]⟩

end HppProto.Props
