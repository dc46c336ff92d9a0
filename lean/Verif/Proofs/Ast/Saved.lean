import Verif.Model.Ast.Saved
import Verif.Spec.Saved
import Verif.Proofs.Ast.Basic
import Verif.Proofs.Ast.Visit
import Verif.Proofs.Symbol

/-!
# Reading back what was stored
-/

namespace FM
open FM.Spec

/-! ## Tokens -/

theorem Position.load_save (p : Position) : Position.load p.save = some p := rfl

theorem Quote.load_save (q : Quote) : Quote.load (.str q.serdeName) = some q := by cases q <;> rfl

theorem InterpKind.load_save (q : InterpKind) : InterpKind.load (.str q.serdeName) = some q := by cases q <;> rfl

theorem Symbol.load_save (y : Symbol) : Symbol.load (.str y.text) = some y := by
  show Symbol.all.find? (·.text == y.text) = some y
  cases h : Symbol.all.find? (·.text == y.text) with
  | none => simpa using List.find?_eq_none.1 h y y.mem_all
  | some z =>
    have : z.text = y.text := by simpa using List.find?_some h
    rw [Symbol.text_inj this]

/-- The token can be read back. -/
def TokenType.keeps : TokenType → Bool
  | .stringLiteral _ depth _ => depth != 0
  | _ => true

theorem TokenType.load_save (t : TokenType) : TokenType.load t.save = if t.keeps then some t else none := by
  cases t with
  | symbol y =>
    have : TokenType.load (TokenType.symbol y).save = (Symbol.load (.str y.text)).map .symbol := by
      show (Symbol.load (.str y.text)).bind _ = _
      cases Symbol.load (.str y.text) <;> rfl
    rw [this, Symbol.load_save]; rfl
  | stringLiteral l d q =>
    cases d with
    | zero => cases q <;> rfl
    | succ d => cases q <;> rfl
  | interpolated l k => cases k <;> rfl
  | _ => rfl

theorem Token.load_save (t : Token) : Token.load t.save = if t.type.keeps then some t else none := by
  have : Token.load t.save = (TokenType.load t.type.save).bind fun y => some ⟨t.start, t.stop, y⟩ := rfl
  rw [this, TokenType.load_save]
  split <;> rfl

theorem mapM_load_save (ts : List Token) :
    (ts.map Token.save).mapM Token.load = if ts.all (·.type.keeps) then some ts else none := by
  induction ts with
  | nil => rfl
  | cons t ts ih =>
    rw [List.map_cons, List.mapM_cons, Token.load_save, ih, List.all_cons]
    cases t.type.keeps <;> cases ts.all (·.type.keeps) <;> rfl

/-- The token reference can be read back. -/
def TokRef.keeps (t : TokRef) : Bool := t.flat.all (·.type.keeps)

theorem TokRef.load_save (t : TokRef) : TokRef.load t.save = if t.keeps then some t else none := by
  have : TokRef.load t.save = ((t.leading.map Token.save).mapM Token.load).bind fun l =>
      (Token.load t.token.save).bind fun k => ((t.trailing.map Token.save).mapM Token.load).bind fun r => some ⟨l, k, r⟩ := rfl
  rw [this, mapM_load_save, mapM_load_save, Token.load_save]
  unfold TokRef.keeps TokRef.flat
  rw [List.all_append, List.all_cons]
  cases t.leading.all (·.type.keeps) <;> cases t.token.type.keeps <;> cases t.trailing.all (·.type.keeps) <;> rfl

theorem TokRef.keeps_iff (t : TokRef) : t.keeps = true ↔ ∀ k ∈ t.flat, ¬ depthZero k := by
  unfold TokRef.keeps
  rw [List.all_eq_true]
  refine forall_congr' fun k => forall_congr' fun _ => ?_
  unfold depthZero
  cases h : k.type <;> simp [TokenType.keeps]

/-! ## The tables -/

/-- Lists of annotations that are left out cannot be read back. -/
def Stored.keeps (f : Features) (s : Stored) (c : Node) : Bool :=
  !(s.gate.on f && s.skip.test c && (s.skip == .allNone || s.skip == .someAllNone))

/-- The fields of a struct or variant. -/
def Shape.stored : Shape → List Stored
  | .struct fs | .fields _ fs => fs
  | _ => []

/-- All these fields are kept. -/
def keepsAll (f : Features) : List Stored → List Node → Bool
  | s :: ss, c :: cs => s.keeps f c && keepsAll f ss cs
  | _, _ => true

mutual
/-- The node can be read back. -/
def Node.keeps (f : Features) : Node → Bool
  | .tok t => t.keeps
  | .node k cs => keepsAll f k.shape.stored cs && Node.keepss f cs
def Node.keepss (f : Features) : List Node → Bool
  | [] => true
  | c :: cs => c.keeps f && Node.keepss f cs
end

/-- An `Option`. -/
def Ty.isOpt : Ty → Bool
  | .opt _ => true
  | _ => false

/-- A `Vec`. -/
def Ty.isVec : Ty → Bool
  | .vec _ => true
  | _ => false

/-- No `Option<Option<_>>`. -/
def Ty.single : Ty → Bool
  | .tok | .span | .cat _ => true
  | .opt a => !a.isOpt && a.single
  | .vec a | .punct a | .pair a => a.single
  | .tup a b => a.single && b.single

/-- What the table of fields must satisfy. -/
def Stored.fits (s : Stored) (a : Ty) : Bool :=
  (s.gate == .always || a.isOpt || a.isVec) &&
  match s.skip with
  | .never => true
  | .none => a.isOpt
  | .allNone | .someAllNone => a.isVec && !s.default

/-- All of them. -/
def fitsAll : List Stored → List Ty → Bool
  | s :: ss, a :: as => s.fits a && fitsAll ss as
  | [], [] => true
  | _, _ => false

/-- What the tables must satisfy for a kind. -/
def Kind.wellStored (k : Kind) (c : Cat) : Bool :=
  k.sig.all Ty.single &&
  match k.shape with
  | .struct fs => c.struct == some (k, fs) && fitsAll fs k.sig && decide (fs.map Stored.name).Nodup
  | .newtype n => c.struct == none && c.variant n == some k && k.sig.length == 1
  | .fields n fs => c.struct == none && c.variant n == some k && fitsAll fs k.sig && decide (fs.map Stored.name).Nodup
  | .container => false

theorem wellStored {k : Kind} {c : Cat} (h : k.cat = some c) : k.wellStored c = true := by
  cases k with
  | binOp op => cases h; cases op <;> decide +kernel
  | unOp op => cases h; cases op <;> decide +kernel
  | compoundOp op => cases h; cases op <;> decide +kernel
  | _ => first
    | (cases h; done)
    | (cases h; decide +kernel)

/-! ## Nodes -/

section
variable {f : Features} {R₀ : TokRef → Prop}

theorem under_cons_self (name : Text) (v : Val) (m : List (Text × Val)) : Val.under name ((name, v) :: m) = v :: Val.under name m := by
  simp [Val.under]

theorem under_cons_ne {name other : Text} (h : other ≠ name) (v : Val) (m : List (Text × Val)) :
    Val.under name ((other, v) :: m) = Val.under name m := by
  simp [Val.under, h]

theorem under_saveFields {name : Text} : ∀ {ss : List Stored} (cs : List Node) (vs : List Val), name ∉ ss.map Stored.name →
    Val.under name (saveFields f ss cs vs) = []
  | [], _, _, _ => rfl
  | _ :: _, [], _, _ => rfl
  | _ :: _, _ :: _, [], _ => rfl
  | s :: ss, c :: cs, v :: vs, h => by
    have h' := under_saveFields cs vs (fun h' => h (List.mem_cons_of_mem _ h'))
    have hne : s.name ≠ name := fun e => h (by simp [e])
    unfold saveFields
    split
    · rw [under_cons_ne hne, h']
    · exact h'

theorem loadFields_cons {ss : List Stored} {as : List Ty} {name : Text} (v : Val) (m : List (Text × Val))
    (h : name ∉ ss.map Stored.name) : loadFields f ss as ((name, v) :: m) = loadFields f ss as m := by
  induction ss generalizing as with
  | nil => cases as <;> simp [loadFields]
  | cons s ss ih =>
    cases as with
    | nil => simp [loadFields]
    | cons a as =>
      have hne : name ≠ s.name := fun e => h (by simp [e])
      rw [loadFields, loadFields, ih (fun h' => h (List.mem_cons_of_mem _ h')), under_cons_ne hne]

theorem loadAll_save {a : Ty} : ∀ {cs : List Node},
    (∀ c ∈ cs, load f a (c.save f) = if c.keeps f then some c else none) →
    loadAll f a (Node.saves f cs) = if Node.keepss f cs then some cs else none
  | [], _ => by simp [Node.saves, loadAll, Node.keepss]
  | c :: cs, h => by
    rw [Node.saves, loadAll, h c (by simp), loadAll_save fun d hd => h d (List.mem_cons_of_mem _ hd), Node.keepss]
    cases c.keeps f <;> cases Node.keepss f cs <;> rfl

/-- Fields of features that are not compiled are empty. -/
def gatedEmpty (f : Features) : List Stored → List Node → Prop
  | s :: ss, c :: cs => (s.gate.on f = false → c.children = []) ∧ gatedEmpty f ss cs
  | _, _ => True

theorem empty_eq {a : Ty} {c : Node} (h : HasTy R₀ a c) (ha : a.isOpt = true ∨ a.isVec = true) (hc : c.children = []) : c = a.empty := by
  cases a with
  | opt a =>
    rcases hasTy_opt.1 h with rfl | ⟨d, _, rfl⟩
    · rfl
    · cases hc
  | vec a =>
    obtain ⟨cs, _, rfl⟩ := hasTy_vec.1 h
    cases hc; rfl
  | _ => rcases ha with ha | ha <;> cases ha

theorem keepss_empty {a : Ty} {c : Node} (h : HasTy R₀ a c) (ha : a.isOpt = true ∨ a.isVec = true) (hc : c.children = []) : c.keeps f = true := by
  rw [empty_eq h ha hc]
  cases a <;> rfl

theorem loadFields_save : ∀ {ss : List Stored} {as : List Ty} {cs : List Node}, fitsAll ss as = true → (ss.map Stored.name).Nodup →
    HasTys R₀ as cs → gatedEmpty f ss cs →
    (∀ a ∈ as, ∀ c ∈ cs, HasTy R₀ a c → load f a (c.save f) = if c.keeps f then some c else none) →
    loadFields f ss as (saveFields f ss cs (Node.saves f cs)) = if keepsAll f ss cs && Node.keepss f cs then some cs else none
  | [], [], cs, _, _, h, _, _ => by
    cases hasTys_nil.1 h
    rw [loadFields]; rfl
  | [], _ :: _, _, h, _, _, _, _ => by cases h
  | _ :: _, [], _, h, _, _, _, _ => by cases h
  | s :: ss, a :: as, cs, hf, hn, hty, hg, hl => by
    obtain ⟨c, cs, hc, hcs, rfl⟩ := hasTys_cons.1 hty
    rw [fitsAll, Bool.and_eq_true] at hf
    rw [List.map_cons, List.nodup_cons] at hn
    have ih := loadFields_save hf.2 hn.2 hcs hg.2 fun b hb d hd => hl b (List.mem_cons_of_mem _ hb) d (List.mem_cons_of_mem _ hd)
    have hfit := hf.1
    unfold Stored.fits at hfit
    rw [Bool.and_eq_true] at hfit
    rw [Node.saves, saveFields, Node.keepss, keepsAll]
    by_cases hon : s.gate.on f = true
    · by_cases hsk : s.skip.test c = true
      · -- left out
        rw [if_neg (by simp [hsk]), loadFields, if_pos hon, under_saveFields _ _ hn.1, ih]
        dsimp only
        cases hs : s.skip with
        | never => rw [hs] at hsk; cases hsk
        | none =>
          rw [hs] at hsk
          have ha : a.isOpt = true := by have := hfit.2; rw [hs] at this; exact this
          cases a with
          | opt a =>
            rcases hasTy_opt.1 hc with rfl | ⟨d, _, rfl⟩
            · have : s.keeps f (.node .absent []) = true := by simp [Stored.keeps, hs]
              rw [this]
              cases keepsAll f ss cs <;> cases Node.keepss f cs <;> rfl
            · cases hsk
          | _ => cases ha
        | allNone =>
          have ha := hfit.2
          rw [hs] at ha
          have : s.keeps f c = false := by simp [Stored.keeps, hs, hon]; rw [hs] at hsk; exact hsk
          rw [this]
          cases a with
          | vec a =>
            have hd : s.default = false := by simpa [Ty.isVec] using ha
            simp [Stored.missing, hd]
          | _ => cases ha
        | someAllNone =>
          have ha := hfit.2
          rw [hs] at ha
          have : s.keeps f c = false := by simp [Stored.keeps, hs, hon]; rw [hs] at hsk; exact hsk
          rw [this]
          cases a with
          | vec a =>
            have hd : s.default = false := by simpa [Ty.isVec] using ha
            simp [Stored.missing, hd]
          | _ => cases ha
      · -- stored
        have hsk : s.skip.test c = false := by simpa using hsk
        rw [if_pos (by simp [hsk, hon]), loadFields, if_pos hon, under_cons_self, under_saveFields _ _ hn.1,
          loadFields_cons _ _ hn.1, ih]
        dsimp only
        rw [hl a (by simp) c (by simp) hc]
        have : s.keeps f c = true := by simp [Stored.keeps, hsk]
        rw [this]
        cases c.keeps f <;> cases keepsAll f ss cs <;> cases Node.keepss f cs <;> rfl
    · have hon : s.gate.on f = false := by simpa using hon
      have he := hg.1 hon
      have ha : a.isOpt = true ∨ a.isVec = true := by
        have := hfit.1
        rw [Bool.or_eq_true, Bool.or_eq_true] at this
        rcases this with (h | h) | h
        · have : s.gate = .always := by simpa using h
          rw [this] at hon; cases hon
        · exact .inl h
        · exact .inr h
      rw [if_neg (by simp [hon]), loadFields, if_neg (by simp [hon]), ih, keepss_empty hc ha he, ← empty_eq hc ha he]
      have : s.keeps f c = true := by simp [Stored.keeps, hon]
      rw [this]
      cases keepsAll f ss cs <;> cases Node.keepss f cs <;> rfl

theorem Kind.save_cat {k : Kind} {c : Cat} (h : k.cat = some c) (cs : List Node) (vs : List Val) : k.save f cs vs =
    match k.shape with
    | .struct fields => .map (saveFields f fields cs vs)
    | .newtype name => .map [(name, headVal vs)]
    | .fields name fields => .map [(name, .map (saveFields f fields cs vs))]
    | .container => .null := by
  cases k <;> first | rfl | cases h

theorem save_ne_null {a : Ty} {n : Node} (h : HasTy R₀ a n) (ha : a.isOpt = false) : n.save f ≠ .null := by
  cases a with
  | tok => obtain ⟨t, _, rfl⟩ := hasTy_tok.1 h; simp [Node.save, TokRef.save]
  | span => obtain ⟨o, c, _, _, rfl⟩ := hasTy_span.1 h; simp [Node.save, Kind.save]
  | cat c =>
    obtain ⟨k, cs, hk, _, rfl⟩ := hasTy_cat.1 h
    rw [Node.save, Kind.save_cat hk]
    have := wellStored hk
    unfold Kind.wellStored at this
    split <;> try simp
    rename_i hs
    rw [hs] at this
    simp at this
  | opt a => cases ha
  | vec a => obtain ⟨cs, _, rfl⟩ := hasTy_vec.1 h; simp [Node.save, Kind.save]
  | punct a => obtain ⟨cs, _, rfl⟩ := hasTy_punct.1 h; simp [Node.save, Kind.save]
  | pair a => rcases hasTy_pair.1 h with ⟨c, _, rfl⟩ | ⟨c, t, _, _, rfl⟩ <;> simp [Node.save, Kind.save]
  | tup a b => obtain ⟨x, y, _, _, rfl⟩ := hasTy_tup.1 h; simp [Node.save, Kind.save]

theorem load_opt {a : Ty} {v : Val} (h : v ≠ .null) : load f (.opt a) v = (load f a v).map fun n => .node .present [n] := by
  cases v with
  | null => exact absurd rfl h
  | _ => rw [load]; nofun

theorem load_end {a : Ty} (v : Val) : load f (.pair a) (.map [(c!"End", v)]) = (load f a v).map fun n => .node .pairEnd [n] := by
  rw [load.eq_def]
  dsimp only
  rw [if_pos rfl]

theorem load_struct {c : Cat} {k : Kind} {fs : List Stored} (h : c.struct = some (k, fs)) (m : List (Text × Val)) :
    load f (.cat c) (.map m) = (loadFields f fs k.sig m).map (.node k) := by
  rw [load.eq_def]
  dsimp only
  rw [h]

theorem load_newtype {c : Cat} {k : Kind} {name n : Text} {a : Ty} (h : c.struct = none) (h' : c.variant name = some k)
    (hs : k.shape = .newtype n) (ha : k.sig = [a]) (v : Val) :
    load f (.cat c) (.map [(name, v)]) = (load f a v).map fun n => .node k [n] := by
  rw [load.eq_def]
  dsimp only
  rw [h]
  dsimp only
  rw [h']
  dsimp only
  rw [hs, ha]

theorem load_fields {c : Cat} {k : Kind} {name n : Text} {fs : List Stored} (h : c.struct = none) (h' : c.variant name = some k)
    (hs : k.shape = .fields n fs) (m : List (Text × Val)) :
    load f (.cat c) (.map [(name, .map m)]) = (loadFields f fs k.sig m).map (.node k) := by
  rw [load.eq_def]
  dsimp only
  rw [h]
  dsimp only
  rw [h']
  dsimp only
  rw [hs]

theorem gatedEmpty_always : ∀ {ss : List Stored} {cs : List Node}, (∀ s ∈ ss, s.gate = .always) → gatedEmpty f ss cs
  | [], _, _ => trivial
  | _ :: _, [], _ => trivial
  | s :: ss, c :: cs, h => ⟨fun h' => by (rw [h s (by simp)] at h'; cases h'), gatedEmpty_always fun s hs => h s (List.mem_cons_of_mem _ hs)⟩

theorem gatedEmpty_of {k : Kind} {cs : List Node} (hty : HasTys R₀ k.sig cs) (h : fieldsCompiled f k cs) : gatedEmpty f k.shape.stored cs := by
  have hl := hty.length
  cases k with
  | anonFunc =>
    match cs, hl with
    | [a, b, c], _ => simp [gatedEmpty, Kind.shape, Shape.stored, Gate.on, Stored.plain]; exact h
  | localFunction =>
    match cs, hl with
    | [a, b, c, d, e], _ => simp [gatedEmpty, Kind.shape, Shape.stored, Gate.on, Stored.plain]; exact h
  | functionDecl =>
    match cs, hl with
    | [a, b, c, d], _ => simp [gatedEmpty, Kind.shape, Shape.stored, Gate.on, Stored.plain]; exact h
  | methodCall =>
    match cs, hl with
    | [a, b, c, d], _ => simp [gatedEmpty, Kind.shape, Shape.stored, Gate.on, Stored.plain]; exact h
  | numericFor =>
    match cs, hl with
    | [_, _, _, _, _, _, _, _, _, _, _, _], _ => simp [gatedEmpty, Kind.shape, Shape.stored, Gate.on, Stored.plain]; exact h
  | genericFor =>
    match cs, hl with
    | [_, _, _, _, _, _, _, _], _ => simp [gatedEmpty, Kind.shape, Shape.stored, Gate.on, Stored.plain]; exact h
  | funcBody =>
    match cs, hl with
    | [a, b, c, d, e, g, i], _ =>
      simp only [gatedEmpty, Kind.shape, Shape.stored, Gate.on, Stored.plain]
      exact ⟨fun hf => (h hf).1, nofun, nofun, fun hf => (h hf).2.1, fun hf => (h hf).2.2, nofun, nofun, trivial⟩
  | localAssignment =>
    match cs, hl with
    | [_, _, _, _, _, _], _ => simp [gatedEmpty, Kind.shape, Shape.stored, Gate.on, Stored.plain]; exact h
  | _ => exact gatedEmpty_always (by simp [Kind.shape, Shape.stored, Stored.plain])

theorem load_save {n : Node} : ∀ {a : Ty}, a.single = true → HasTy R₀ a n → n.Every (fieldsCompiled f) →
    load f a (n.save f) = if n.keeps f then some n else none := by
  induction n using Node.induct with
  | ht t =>
    intro a _ h _
    cases a with
    | tok =>
      rw [load, Node.save, TokRef.load_save, Node.keeps]
      cases t.keeps <;> rfl
    | _ => simp [HasTy] at h
  | hn k cs ih =>
    intro a ha h hcomp
    have hcs : ∀ c ∈ cs, c.Every (fieldsCompiled f) := by
      have := hcomp.2
      clear ih h hcomp
      induction cs with
      | nil => simp
      | cons c cs ih =>
        intro d hd
        rcases List.mem_cons.1 hd with rfl | hd
        · exact this.1
        · exact ih this.2 d hd
    cases a with
    | tok => simp [HasTy] at h
    | span =>
      obtain ⟨o, c, _, _, he⟩ := hasTy_span.1 h
      cases he
      have : load f .span ((Node.node .span [.tok o, .tok c]).save f) =
          (TokRef.load o.save).bind fun x => (TokRef.load c.save).bind fun y => some (.node .span [.tok x, .tok y]) := by
        rw [load]; rfl
      rw [this, TokRef.load_save, TokRef.load_save]
      simp only [Node.keeps, Node.keepss, Kind.shape, Shape.stored, keepsAll]
      cases o.keeps <;> cases c.keeps <;> rfl
    | cat c =>
      obtain ⟨k, cs', hk, hcs', he⟩ := hasTy_cat.1 h
      cases he
      have hw := wellStored hk
      unfold Kind.wellStored at hw
      rw [Bool.and_eq_true, List.all_eq_true] at hw
      have hg := gatedEmpty_of hcs' hcomp.1
      have hl : ∀ b ∈ k.sig, ∀ d ∈ cs, HasTy R₀ b d → load f b (d.save f) = if d.keeps f then some d else none :=
        fun b hb d hd hty => ih d hd (hw.1 b hb) hty (hcs d hd)
      rw [Node.save, Kind.save_cat hk, Node.keeps]
      cases hs : k.shape with
      | «struct» fs =>
        rw [hs] at hw hg
        dsimp only at hw ⊢
        rw [Bool.and_eq_true, Bool.and_eq_true, beq_iff_eq, decide_eq_true_eq] at hw
        rw [load_struct hw.2.1.1]
        rw [loadFields_save hw.2.1.2 hw.2.2 hcs' hg hl]
        show _ = if (keepsAll f fs cs && Node.keepss f cs) = true then _ else _
        by_cases hkeep : (keepsAll f fs cs && Node.keepss f cs) = true
        · rw [if_pos hkeep, if_pos hkeep]; rfl
        · rw [if_neg hkeep, if_neg hkeep]; rfl
      | newtype name =>
        rw [hs] at hw
        dsimp only at hw ⊢
        rw [Bool.and_eq_true, Bool.and_eq_true, beq_iff_eq, beq_iff_eq, beq_iff_eq] at hw
        obtain ⟨b, hb⟩ : ∃ b, k.sig = [b] := by
          match h1 : k.sig, hw.2.2 with
          | [b], _ => exact ⟨b, rfl⟩
        rw [hb] at hcs'
        obtain ⟨d, ds, hd, hds, rfl⟩ := hasTys_cons.1 hcs'
        cases hasTys_nil.1 hds
        rw [load_newtype hw.2.1.1 hw.2.1.2 hs hb]
        have : headVal (Node.saves f [d]) = d.save f := rfl
        rw [this, hl b (by simp [hb]) d (by simp) hd]
        simp only [Shape.stored, keepsAll, Node.keepss, Bool.true_and, Bool.and_true]
        split <;> rfl
      | fields name fs =>
        rw [hs] at hw hg
        dsimp only at hw ⊢
        rw [Bool.and_eq_true, Bool.and_eq_true, Bool.and_eq_true, beq_iff_eq, beq_iff_eq, decide_eq_true_eq] at hw
        rw [load_fields hw.2.1.1.1 hw.2.1.1.2 hs]
        rw [loadFields_save hw.2.1.2 hw.2.2 hcs' hg hl]
        show _ = if (keepsAll f fs cs && Node.keepss f cs) = true then _ else _
        by_cases hkeep : (keepsAll f fs cs && Node.keepss f cs) = true
        · rw [if_pos hkeep, if_pos hkeep]; rfl
        · rw [if_neg hkeep, if_neg hkeep]; rfl
      | container => rw [hs] at hw; simp at hw
    | opt a =>
      have ha' : a.isOpt = false ∧ a.single = true := by simpa [Ty.single] using ha
      rcases hasTy_opt.1 h with he | ⟨c, hc, he⟩ <;> cases he
      · rw [Node.save, Kind.save, load]; rfl
      · have : (Node.node .present [c]).save f = c.save f := rfl
        rw [this, load_opt (save_ne_null hc ha'.1), ih c (by simp) ha'.2 hc (hcs c (by simp))]
        simp only [Node.keeps, Node.keepss, Kind.shape, Shape.stored, keepsAll, Bool.true_and, Bool.and_true]
        split <;> rfl
    | vec a =>
      obtain ⟨cs', hc, he⟩ := hasTy_vec.1 h
      cases he
      rw [Node.save, Kind.save, load, loadAll_save fun c hm => ih c hm (by simpa [Ty.single] using ha) (hc c hm) (hcs c hm)]
      simp only [Node.keeps, Kind.shape, Shape.stored, keepsAll, Bool.true_and]
      cases Node.keepss f cs <;> rfl
    | punct a =>
      obtain ⟨cs', hc, he⟩ := hasTy_punct.1 h
      cases he
      have : load f (.punct a) ((Node.node .punct cs).save f) = (loadAll f (.pair a) (Node.saves f cs)).map (.node .punct) := by
        rw [Node.save, Kind.save, load]; rfl
      rw [this, loadAll_save fun c hm => ih c hm (by simpa [Ty.single] using ha) (hc c hm) (hcs c hm)]
      simp only [Node.keeps, Kind.shape, Shape.stored, keepsAll, Bool.true_and]
      cases Node.keepss f cs <;> rfl
    | pair a =>
      rcases hasTy_pair.1 h with ⟨c, hc, he⟩ | ⟨c, t, hc, _, he⟩ <;> cases he
      · have : load f (.pair a) ((Node.node .pairEnd [c]).save f) = (load f a (c.save f)).map fun n => .node .pairEnd [n] := load_end _
        rw [this, ih c (by simp) (by simpa [Ty.single] using ha) hc (hcs c (by simp))]
        simp only [Node.keeps, Node.keepss, Kind.shape, Shape.stored, keepsAll, Bool.true_and, Bool.and_true]
        split <;> rfl
      · have : load f (.pair a) ((Node.node .pairPunct [c, .tok t]).save f) =
            (load f a (c.save f)).bind fun n => (TokRef.load t.save).map fun p => .node .pairPunct [n, .tok p] := by
          rw [Node.save, Kind.save, Node.saves, Node.saves, Node.saves, load, if_neg (by decide), if_pos rfl]; rfl
        rw [this, ih c (by simp) (by simpa [Ty.single] using ha) hc (hcs c (by simp)), TokRef.load_save]
        simp only [Node.keeps, Node.keepss, Kind.shape, Shape.stored, keepsAll]
        cases c.keeps f <;> cases t.keeps <;> rfl
    | tup a b =>
      obtain ⟨x, y, hx, hy, he⟩ := hasTy_tup.1 h
      cases he
      rw [Ty.single, Bool.and_eq_true] at ha
      have : load f (.tup a b) ((Node.node .tuple [x, y]).save f) =
          (load f a (x.save f)).bind fun n => (load f b (y.save f)).map fun m => .node .tuple [n, m] := by
        rw [Node.save, Kind.save, Node.saves, Node.saves, Node.saves, load]
      rw [this, ih x (by simp) ha.1 hx (hcs x (by simp)), ih y (by simp) ha.2 hy (hcs y (by simp))]
      simp only [Node.keeps, Node.keepss, Kind.shape, Shape.stored, keepsAll]
      cases x.keeps f <;> cases y.keeps f <;> rfl

/-! ## What can be read back -/

theorem isAbsent_iff (c : Node) : c.isAbsent = true ↔ ∃ ds, c = .node .absent ds := by
  unfold Node.isAbsent
  split
  · simp
  · rename_i h
    simp only [Bool.false_eq_true, false_iff]
    rintro ⟨ds, rfl⟩
    exact h ds rfl

theorem allAbsent_iff (n : Node) : n.fields.all Node.isAbsent = true ↔ allNone n := by
  have : n.fields = n.children := by cases n <;> rfl
  rw [List.all_eq_true, this]
  exact forall_congr' fun c => forall_congr' fun _ => isAbsent_iff c

theorem keepsAll_never : ∀ {ss : List Stored} {cs : List Node}, (∀ s ∈ ss, s.skip = .never ∨ s.skip = .none) → keepsAll f ss cs = true
  | [], _, _ => rfl
  | _ :: _, [], _ => rfl
  | s :: ss, c :: cs, h => by
    rw [keepsAll, keepsAll_never fun s hs => h s (List.mem_cons_of_mem _ hs)]
    rcases h s (by simp) with h | h <;> simp [Stored.keeps, h]

theorem keepsAll_iff {k : Kind} {cs : List Node} (hl : k.isContainer = false → cs.length = k.sig.length) :
    keepsAll f k.shape.stored cs = true ↔ nothingLeftOut f k cs := by
  cases k with
  | genericFor =>
    match cs, hl rfl with
    | [_, _, _, _, _, _, _, t], _ =>
      simp only [keepsAll, Kind.shape, Shape.stored, Gate.on, Stored.plain, Stored.keeps, Skip.test, nothingLeftOut, ← allAbsent_iff]
      cases t with
      | tok t => simp [Node.fields]
      | node k cs =>
        cases cs with
        | nil => cases f.luau <;> simp [Node.fields, Node.children]
        | cons c cs => cases f.luau <;> cases hc : c.isAbsent <;> simp [Node.fields, Node.children, hc]
  | localAssignment =>
    match cs, hl rfl with
    | [_, _, _, _, _, _], _ =>
      simp only [keepsAll, Kind.shape, Shape.stored, Gate.on, Stored.plain, Stored.keeps, Skip.test, nothingLeftOut, ← allAbsent_iff]
      cases f.luau <;> cases f.lua54 <;> simp
  | _ =>
    rw [keepsAll_never (by simp [Kind.shape, Shape.stored, Stored.plain])]
    simp [nothingLeftOut]

theorem keepss_iff : ∀ {cs : List Node}, Node.keepss f cs = true ↔ ∀ c ∈ cs, c.keeps f = true
  | [] => by simp [Node.keepss]
  | c :: cs => by simp [Node.keepss, keepss_iff (cs := cs)]

theorem keeps_iff {n : Node} : Typed R₀ n → (n.keeps f = true ↔ Restorable f n) := by
  induction n using Node.induct with
  | ht t =>
    intro _
    rw [Node.keeps, TokRef.keeps_iff]
    simp [Restorable, Node.tokens_tok]
  | hn k cs ih =>
    intro h
    have hc := h.cases
    rw [Node.keeps, Bool.and_eq_true, keepss_iff, keepsAll_iff fun h => (hc.2 h).length]
    have : (∀ c ∈ cs, c.keeps f = true) ↔ ∀ c ∈ cs, Restorable f c :=
      forall_congr' fun c => forall_congr' fun h => ih c h (hc.1 c h)
    rw [this]
    unfold Restorable
    rw [Node.every_node, Node.tokens_node]
    simp only [List.mem_flatMap, forall_exists_index, and_imp]
    constructor
    · rintro ⟨h1, h2⟩
      exact ⟨⟨h1, fun c hc => (h2 c hc).1⟩, fun t c hc ht => (h2 c hc).2 t ht⟩
    · rintro ⟨⟨h1, h2⟩, h3⟩
      exact ⟨h1, fun c hc => ⟨h2 c hc, fun t ht => h3 t c hc ht⟩⟩

end

end FM
