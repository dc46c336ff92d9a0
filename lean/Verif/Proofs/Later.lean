import Verif.Spec.Later
import Verif.Proofs.Parser.Listed
import Verif.Proofs.Symbol
import Verif.Proofs.LexerStep

/-!
# The grammar in later versions
-/

namespace FM.Spec
open FM FM.Parser

variable {c c' : Cfg}

theorem Later.same (h : Later c c') : c.has .luau = c'.has .luau := by
  cases hl : c.has .luau with
  | false => exact h.luau.symm
  | true => exact (h.more _ hl).symm

theorem Later.any (h : Later c c') {vs : List Ver} (hv : c.hasAny vs = true) : c'.hasAny vs = true := by
  simp only [Cfg.hasAny, Bool.or_eq_true, List.any_eq_true] at hv ⊢
  exact hv.imp id fun ⟨v, h1, h2⟩ => ⟨v, h1, h.more v h2⟩

theorem Later.available (h : Later c c') {k : Kind} (hk : available c k = true) : available c' k = true := by
  have h1 := h.more .lua52
  have h2 := h.more .luajit
  have h3 := h.more .lua54
  have h4 := h.more .cfxlua
  have h5 := h.more .luau
  have h6 := h.more .lua53
  unfold Spec.available at hk ⊢
  split at hk
  all_goals first
    | (simp only [Bool.or_eq_true] at hk ⊢; exact hk.imp (h.more _) (h.more _))
    | exact h.more _ hk
    | exact h.any hk
    | (simp only [h.feat]; exact hk)
    | exact hk
    | skip
  simp only [Bool.or_eq_true] at hk ⊢
  exact hk.imp id (h.more _)

theorem Later.connected (h : Later c c') {k : Kind} {cs : List Node} (hk : Connected c k cs) : Connected c' k cs := by
  unfold Connected at hk ⊢
  split at hk <;> first | exact hk | (simp only [h.feat, ← h.same, Cfg.luau] at hk ⊢; exact hk)

theorem Later.conforms (h : Later c c') (n : Node) : ∀ p : Part, Conforms c p n → Conforms c' p n := by
  induction n using Node.induct3 with
  | ht t =>
    intro p hp
    cases p <;> simp only [Conforms] at hp ⊢
    exact hp
  | hn k cs ih ih2 _ =>
    have all : ∀ {ps : List Part} {ds : List Node}, (∀ x ∈ ds, ∀ p, Conforms c p x → Conforms c' p x) → ConformsAll c ps ds → ConformsAll c' ps ds := by
      intro ps
      induction ps with
      | nil => intro ds _ h; cases ds <;> simpa [ConformsAll] using h
      | cons p ps ihp =>
        intro ds hd h
        cases ds with
        | nil => simp [ConformsAll] at h
        | cons d ds =>
          rw [ConformsAll] at h ⊢
          exact ⟨hd d (by simp) _ h.1, ihp (fun x hx => hd x (by simp [hx])) h.2⟩
    have each : ∀ {p : Part} {ds : List Node}, (∀ x ∈ ds, ∀ p, Conforms c p x → Conforms c' p x) → ConformsEach c p ds → ConformsEach c' p ds := by
      intro p ds
      induction ds with
      | nil => intro _ h; simpa [ConformsEach] using h
      | cons d ds ihd =>
        intro hd h
        rw [ConformsEach] at h ⊢
        exact ⟨hd d (by simp) _ h.1, ihd (fun x hx => hd x (by simp [hx])) h.2⟩
    have pairs : ∀ {p : Part} {seps : List Symbol} {ds : List Node}, (∀ x ∈ ds, ∀ y ∈ x.children, ∀ p, Conforms c p y → Conforms c' p y) →
        ConformsPairs c p seps ds → ConformsPairs c' p seps ds := by
      intro p seps ds
      induction ds with
      | nil => intro _ h; simpa [ConformsPairs] using h
      | cons d ds ihd =>
        intro hd h
        have hd1 := hd d (by simp)
        have hd2 := ihd fun x hx => hd x (by simp [hx])
        unfold ConformsPairs at h
        split at h
        · rename_i e; cases e
        · rename_i e; cases e
          rw [ConformsPairs]
          exact ⟨all hd1 h.1, hd2 h.2⟩
        · rename_i e; cases e
          rw [ConformsPairs]
          exact ⟨all hd1 h.1, hd2 h.2⟩
        · exact h.elim
    intro p hp
    unfold Conforms at hp
    split at hp
    · cases ‹Node.node k cs = .tok _›
    · cases ‹Node.node k cs = _›; rw [Conforms]; exact all ih hp
    · cases ‹Node.node k cs = _›
      rw [Conforms, h.feat]
      exact ⟨hp.1, h.available hp.2.1, all ih hp.2.2.1, h.connected hp.2.2.2⟩
    · cases ‹Node.node k cs = _›
      rw [Conforms, h.feat]
      exact ⟨hp.1, hp.2.1, h.available hp.2.2.1, all ih hp.2.2.2.1, h.connected hp.2.2.2.2⟩
    · cases ‹Node.node k cs = _›; rw [Conforms]; exact hp
    · rename_i heq; cases heq; rw [Conforms]; exact all ih hp
    · rename_i heq; cases heq; rw [Conforms]; exact each ih hp
    · rename_i heq; cases heq; rw [Conforms]; exact ⟨each ih hp.1, hp.2⟩
    · rename_i heq; cases heq; rw [Conforms]; exact ⟨pairs ih2 hp.1, hp.2⟩
    · rename_i heq; cases heq; rw [Conforms]; exact all ih hp
    · exact hp.elim

end FM.Spec
