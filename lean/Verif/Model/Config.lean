import Verif.Model.Basic

/-!
# Compiled features and Lua versions

Models `/repo/full-moon/Cargo.toml` 18–27 and `ast/versions.rs`.
-/

namespace FM

/-- The cargo features that influence tokenizing and parsing (`/repo/full-moon/Cargo.toml` 18–26).
`roblox` and `luau` imply each other, so one flag stands for both. -/
structure Features where
  luau : Bool
  lua52 : Bool
  lua53 : Bool
  lua54 : Bool
  luajit : Bool
  cfxlua : Bool
  deriving Repr, DecidableEq

/-- Cargo closes a feature set under the implications `lua53 → lua52`, `lua54 → lua53`, `cfxlua → lua54`
(`/repo/full-moon/Cargo.toml` 22–25): only closed sets can be compiled. -/
def Features.Closed (f : Features) : Prop :=
  (f.lua53 → f.lua52) ∧ (f.lua54 → f.lua53) ∧ (f.cfxlua → f.lua54)

instance (f : Features) : Decidable f.Closed := by unfold Features.Closed; infer_instance

/-- `struct LuaVersion { bitfield: u8 }` (`ast/versions.rs` 13–16). -/
structure LuaVersion where
  bitfield : BitVec 8
  deriving Repr, DecidableEq

/-- The version names of the `version_switch!` / `symbol!` macros. -/
inductive Ver where
  | luau | lua52 | lua53 | lua54 | luajit | cfxlua
  deriving Repr, DecidableEq

/-- `const VERSION_…: u8` (`ast/versions.rs` 3–8). -/
def Ver.bit : Ver → BitVec 8
  | .luau => 1#8
  | .lua52 => 2#8
  | .lua53 => 4#8
  | .lua54 => 8#8
  | .luajit => 16#8
  | .cfxlua => 32#8

/-- `cfg!(feature = "…")`. -/
def Features.has (f : Features) : Ver → Bool
  | .luau => f.luau
  | .lua52 => f.lua52
  | .lua53 => f.lua53
  | .lua54 => f.lua54
  | .luajit => f.luajit
  | .cfxlua => f.cfxlua

namespace LuaVersion

/-- `LuaVersion::lua51` (`ast/versions.rs` 25–27). -/
def lua51 : LuaVersion := ⟨0#8⟩

/-- `LuaVersion::luau/lua52/lua53/lua54/luajit/cfxlua` (`ast/versions.rs` 31–35, 52–56, 71–75, 90–94,
109–113, 128–132).  Each is compiled only with its feature; see `Api` below. -/
def only : Ver → LuaVersion
  | .luau => ⟨Ver.luau.bit⟩
  | .lua52 => ⟨Ver.lua52.bit⟩
  | .lua53 => ⟨Ver.lua52.bit ||| Ver.lua53.bit⟩
  | .lua54 => ⟨Ver.lua52.bit ||| Ver.lua53.bit ||| Ver.lua54.bit⟩
  | .luajit => ⟨Ver.luajit.bit⟩
  | .cfxlua => ⟨Ver.lua52.bit ||| Ver.lua53.bit ||| Ver.lua54.bit ||| Ver.cfxlua.bit⟩

/-- `Default for LuaVersion` and `LuaVersion::new` (`ast/versions.rs` 20–22, 146–152). -/
def default : LuaVersion :=
  ⟨Ver.luau.bit ||| Ver.lua52.bit ||| Ver.lua53.bit ||| Ver.lua54.bit ||| Ver.luajit.bit⟩

/-- `BitOr for LuaVersion` and `BitOrAssign` (`ast/versions.rs` 154–168). -/
def or (a b : LuaVersion) : LuaVersion := ⟨a.bitfield ||| b.bitfield⟩

instance : OrOp LuaVersion := ⟨or⟩

/-- `LuaVersion::with_…` (`ast/versions.rs` 39–43, 60–62, 79–81, 98–100, 117–119, 136–138).
`with_luau` spells out the bit operation the others get from `|`. -/
def withVer (a : LuaVersion) : Ver → LuaVersion
  | .luau => ⟨a.bitfield ||| Ver.luau.bit⟩
  | v => a ||| only v

/-- `LuaVersion::has_…` (`ast/versions.rs` 46–48, 65–67, 84–86, 103–105, 122–124, 141–143). -/
def has (f : Features) (a : LuaVersion) (v : Ver) : Bool :=
  f.has v && (a.bitfield &&& v.bit != 0#8)

end LuaVersion

/-- Everything the code depends on besides its input: compiled features and the run-time version. -/
structure Cfg where
  feat : Features
  ver : LuaVersion
  deriving Repr, DecidableEq

namespace Cfg

/-- `lua_version.has_…()` under the compiled features. -/
def has (c : Cfg) (v : Ver) : Bool := c.ver.has c.feat v

abbrev luau (c : Cfg) : Bool := c.has .luau
abbrev lua52 (c : Cfg) : Bool := c.has .lua52
abbrev lua53 (c : Cfg) : Bool := c.has .lua53
abbrev lua54 (c : Cfg) : Bool := c.has .lua54
abbrev luajit (c : Cfg) : Bool := c.has .luajit
abbrev cfxlua (c : Cfg) : Bool := c.has .cfxlua

/-- `has_version!(lua_version, a, b, …)`: true when one of the versions is active, and for the empty
list (`util.rs` 110–129, used in `tokenizer/structs.rs` 63).  `version_switch!` (`ast/parser_util.rs` 21–38)
runs its body once per active version of the list; all bodies used are idempotent or return, so it is
modelled as `if c.hasAny [..] then body`. -/
def hasAny (c : Cfg) (vs : List Ver) : Bool := vs.isEmpty || vs.any c.has

end Cfg

/-- The versions a program can build through the public API of `LuaVersion`, given the compiled
features (constructors of a version exist only with their feature). -/
inductive LuaVersion.Api (f : Features) : LuaVersion → Prop where
  | lua51 : Api f LuaVersion.lua51
  | default : Api f LuaVersion.default
  | only (v : Ver) : f.has v → Api f (LuaVersion.only v)
  | withVer (v : Ver) {a : LuaVersion} : f.has v → Api f a → Api f (a.withVer v)
  | or {a b : LuaVersion} : Api f a → Api f b → Api f (a ||| b)

/-- A configuration that can occur at run time. -/
def Cfg.Reachable (c : Cfg) : Prop := c.feat.Closed ∧ c.ver.Api c.feat

end FM
