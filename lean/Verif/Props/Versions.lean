import Verif.Proofs.StreamFacts

/-!
# Version sets: C17
-/

namespace FM.Props
open FM FM.Spec

/-- **C17.** Union of version sets is associative, commutative and idempotent. -/
theorem version_or_assoc (a b d : LuaVersion) : (a ||| b) ||| d = a ||| (b ||| d) := by
  show LuaVersion.mk _ = LuaVersion.mk _
  congr 1
  exact BitVec.or_assoc _ _ _

theorem version_or_comm (a b : LuaVersion) : a ||| b = b ||| a := by
  show LuaVersion.mk _ = LuaVersion.mk _
  congr 1
  exact BitVec.or_comm _ _

theorem version_or_self (a : LuaVersion) : a ||| a = a := by
  show LuaVersion.mk _ = a
  cases a
  congr 1
  exact BitVec.or_self

/-- Lua 5.1 is the least element: it adds nothing. -/
theorem version_or_lua51 (a : LuaVersion) : a ||| LuaVersion.lua51 = a := by
  show LuaVersion.mk _ = a
  cases a
  congr 1
  exact BitVec.or_zero

/-- **C17.** A union has exactly the versions of its parts. -/
theorem version_has_or (f : Features) (a b : LuaVersion) (v : Ver) :
    (a ||| b).has f v = (a.has f v || b.has f v) := by
  have h : (((a ||| b).bitfield &&& v.bit) != 0#8) = ((a.bitfield &&& v.bit != 0#8) || (b.bitfield &&& v.bit != 0#8)) := by
    have : (a ||| b).bitfield &&& v.bit ≠ 0#8 ↔ _ := or_and_ne_zero a.bitfield b.bitfield v.bit
    rw [Bool.eq_iff_iff]
    simpa using this
  unfold LuaVersion.has
  rw [h]
  cases f.has v <;> simp

/-- The versions that a version includes, as documented (`ast/versions.rs`): later versions of Lua include
the earlier ones, CfxLua includes Lua 5.4. -/
def includes : Ver → List Ver
  | .luau => [.luau]
  | .lua52 => [.lua52]
  | .lua53 => [.lua52, .lua53]
  | .lua54 => [.lua52, .lua53, .lua54]
  | .luajit => [.luajit]
  | .cfxlua => [.lua52, .lua53, .lua54, .cfxlua]

/-- **C17.** A constructor makes exactly the versions it includes available (those compiled in). -/
theorem version_only_has (f : Features) (v w : Ver) :
    (LuaVersion.only v).has f w = (f.has w && decide (w ∈ includes v)) := by
  unfold LuaVersion.has
  congr 1
  cases v <;> cases w <;> decide

/-- **C17.** `with_x` adds `x` and what `x` includes, and nothing else; it removes nothing. -/
theorem version_with_has (f : Features) (a : LuaVersion) (v w : Ver) :
    (a.withVer v).has f w = (a.has f w || (f.has w && decide (w ∈ includes v))) := by
  have h : a.withVer v = a ||| LuaVersion.only v := by cases v <;> rfl
  rw [h, version_has_or, version_only_has]

/-- **C17.** Nothing is reported for a version that is not compiled in. -/
theorem version_has_compiled (f : Features) (a : LuaVersion) (v : Ver) (h : a.has f v = true) : f.has v = true := by
  simp [LuaVersion.has] at h; exact h.1

/-- **C17.** For every version set the API can build, the inclusions hold. -/
theorem version_includes {c : Cfg} (hc : c.Reachable) {v w : Ver} (hv : c.has v = true) (hw : w ∈ includes v) :
    c.has w = true := by
  obtain ⟨h1, h2, h3⟩ := api_bits hc.2
  obtain ⟨g1, g2, g3⟩ := hc.1
  rw [has_iff] at hv ⊢
  cases v <;> simp [includes] at hw
  · subst hw; exact hv
  · subst hw; exact hv
  · rcases hw with rfl | rfl
    · exact ⟨g1 hv.1, h2 hv.2⟩
    · exact hv
  · rcases hw with rfl | rfl | rfl
    · exact ⟨g1 (g2 hv.1), h2 (h1 hv.2)⟩
    · exact ⟨g2 hv.1, h1 hv.2⟩
    · exact hv
  · subst hw; exact hv
  · rcases hw with rfl | rfl | rfl | rfl
    · exact ⟨g1 (g2 (g3 hv.1)), h2 (h1 (h3 hv.2))⟩
    · exact ⟨g2 (g3 hv.1), h1 (h3 hv.2)⟩
    · exact ⟨g3 hv.1, h3 hv.2⟩
    · exact hv

/-- The default version has everything but CfxLua (of what is compiled in). -/
theorem version_default_has (f : Features) (w : Ver) :
    LuaVersion.default.has f w = (f.has w && decide (w ≠ .cfxlua)) := by
  unfold LuaVersion.has
  congr 1
  cases w <;> decide

/-- Non-vacuity of `version_includes`. -/
example : ∃ c : Cfg, c.Reachable ∧ c.has .cfxlua = true :=
  ⟨⟨⟨false, true, true, true, false, true⟩, .only .cfxlua⟩, ⟨by decide, LuaVersion.Api.only .cfxlua rfl⟩, by decide⟩

end FM.Props
