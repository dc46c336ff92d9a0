import Verif.Model.Symbol
import Verif.Spec.Tokens

/-! Helper lemmas about the symbol table. -/

namespace FM

theorem Symbol.mem_all (y : Symbol) : y ∈ Symbol.all := by
  cases y <;> decide

theorem Symbol.all_texts_nodup : (Symbol.all.map Symbol.text).Nodup := by decide +kernel

theorem pairwise_inj {α β : Type} (f : α → β) : ∀ (l : List α), (l.map f).Nodup →
    ∀ a ∈ l, ∀ b ∈ l, f a = f b → a = b := by
  intro l
  induction l with
  | nil => simp
  | cons x l ih =>
    intro h a ha b hb hab
    simp only [List.map_cons, List.nodup_cons, List.mem_map, not_exists, not_and] at h
    simp only [List.mem_cons] at ha hb
    rcases ha with rfl | ha <;> rcases hb with rfl | hb
    · rfl
    · exact absurd hab.symm (h.1 b hb)
    · exact absurd hab (h.1 a ha)
    · exact ih h.2 a ha b hb hab

theorem Symbol.text_inj {y z : Symbol} (h : y.text = z.text) : y = z :=
  pairwise_inj _ _ Symbol.all_texts_nodup y y.mem_all z z.mem_all h

theorem Cfg.hasAny_iff (c : Cfg) (vs : List Ver) :
    c.hasAny vs = true ↔ vs = [] ∨ ∃ v ∈ vs, c.has v = true := by
  simp [Cfg.hasAny]

theorem introducedBy_text (y : Symbol) : Spec.introducedBy y.text = y.gates := by
  cases y <;> rfl

theorem enabled_iff (c : Cfg) (y : Symbol) : Spec.Enabled c y ↔ c.hasAny y.gates = true := by
  rw [Cfg.hasAny_iff, Spec.Enabled, introducedBy_text]

theorem Cfg.feat_of_has {c : Cfg} {v : Ver} (h : c.has v = true) : c.feat.has v = true := by
  simp [Cfg.has, LuaVersion.has] at h; exact h.1

theorem Symbol.compiled_of_enabled {c : Cfg} {y : Symbol} (h : c.hasAny y.gates = true) :
    y.compiled c.feat = true := by
  rw [Cfg.hasAny_iff] at h
  unfold Symbol.compiled
  rcases h with h | ⟨v, hv, h⟩
  · simp [h]
  · simp only [Bool.or_eq_true, List.any_eq_true]
    exact .inr ⟨v, hv, Cfg.feat_of_has h⟩

theorem Symbol.fromStr_some {c : Cfg} {s : Text} {y : Symbol} (h : Symbol.fromStr c s = some y) :
    y.text = s ∧ c.hasAny y.gates = true := by
  unfold Symbol.fromStr at h
  split at h
  · simp at h
  · rename_i z hz
    split at h
    · rename_i hg
      simp only [Option.some.injEq] at h
      subst h
      have := List.find?_some hz
      simp at this
      exact ⟨this.2, hg⟩
    · simp at h

theorem Symbol.fromStr_text {c : Cfg} {y : Symbol} (h : c.hasAny y.gates = true) :
    Symbol.fromStr c y.text = some y := by
  unfold Symbol.fromStr
  cases hf : Symbol.all.find? (fun z => z.compiled c.feat && z.text == y.text) with
  | none =>
    rw [List.find?_eq_none] at hf
    have := hf y y.mem_all
    simp [Symbol.compiled_of_enabled h] at this
  | some z =>
    have := List.find?_some hf
    simp at this
    have hz := Symbol.text_inj this.2
    subst hz
    simp [h]

theorem keyword_text {w : Text} (h : w ∈ Spec.keywords) : ∃ y : Symbol, y.text = w ∧ y.gates = [] := by
  have : Spec.keywords.all (fun w => Symbol.all.any fun y => y.text == w && y.gates.isEmpty) = true := by decide +kernel
  have := (List.all_eq_true.1 this) w h
  obtain ⟨y, _, hy⟩ := List.any_eq_true.1 this
  simp at hy
  exact ⟨y, hy⟩

theorem fromStr_of_reserved {c : Cfg} {w : Text} (h : Spec.Reserved c w) : ∃ y, Symbol.fromStr c w = some y := by
  rcases h with h | ⟨rfl, h⟩
  · obtain ⟨y, rfl, hg⟩ := keyword_text h
    exact ⟨y, Symbol.fromStr_text (by rw [hg]; rfl)⟩
  · refine ⟨.kGoto, Symbol.fromStr_text (y := .kGoto) ?_⟩
    rw [Cfg.hasAny_iff]
    rcases h with h | h
    · exact .inr ⟨.lua52, by decide, h⟩
    · exact .inr ⟨.luajit, by decide, h⟩

theorem reserved_of_word {c : Cfg} {y : Symbol} (hw : Spec.IsWord y.text) (h : c.hasAny y.gates = true) :
    Spec.Reserved c y.text := by
  by_cases hg : y = .kGoto
  · subst hg
    rw [Cfg.hasAny_iff] at h
    refine .inr ⟨rfl, ?_⟩
    rcases h with h | ⟨v, hv, h⟩
    · simp [Symbol.gates] at h
    · simp [Symbol.gates] at hv
      rcases hv with rfl | rfl
      · exact .inl h
      · exact .inr h
  · refine .inl ?_
    cases y <;> first | decide | exact absurd rfl hg | (exfalso; have := hw.1; revert this; decide)

end FM
