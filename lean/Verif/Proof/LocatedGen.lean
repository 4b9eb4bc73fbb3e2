import Verif.Model.LocatedGen
import Verif.Proof.LocatedRule
import Verif.Proof.Substitution
import Verif.Model.ParseGrammar

/-!
# Errors of code generation: forgetting places and texts, and where they are
-/

set_option autoImplicit false
set_option linter.unusedSectionVars false

namespace Verif.Located

open Verif.Spec

variable {S : Type}

/-! ### Forgetting -/

theorem lookupLabel_rel (m : SubstMap) (name : String) (a : S) :
    OutRel EK Eq (lookupLabel m name a) (m.lookupLabel name) := by
  unfold lookupLabel SubstMap.lookupLabel
  generalize m.labelMap.lookup name = x
  rcases x with _ | _ | _ <;> rfl

theorem literalToIndex_rel (fx : Foreign) (m : SubstMap) (text : String) (a : S) (rule : List ANode) :
    OutRel EK Eq (literalToIndex fx m text a rule) (m.literalToIndex text rule) := by
  unfold literalToIndex SubstMap.literalToIndex
  generalize SubstMap.parseUsize text = x
  rcases x with _ | n
  · rfl
  · dsimp only
    split
    · rfl
    · refine .bind_eq (.index _ _) fun node => ?_
      split <;> rfl

theorem substituteVars_rel (fx : Foreign) (m : SubstMap) (rule : List ANode) (T : LTokens S) :
    OutRel EK Eq (substituteVars fx m rule T) (m.substituteVars rule T.erase) := by
  fun_induction substituteVars fx m rule T with
  | case1 => rfl
  | case2 d a b inner rest ih1 ih2 =>
    simp only [LTokens.erase, SubstMap.substituteVars]
    exact .bind_eq ih1 fun _ => .bind_eq ih2 fun _ => rfl
  | case3 ch joint span h name at_ rest ih =>
    simp only [LTokens.erase, SubstMap.substituteVars, h, and_self, if_true]
    exact .bind_eq (lookupLabel_rel ..) fun _ => .bind_eq ih fun _ => .pure_eq _
  | case4 ch joint span h text at_ rest ih =>
    simp only [LTokens.erase, SubstMap.substituteVars, h, and_self, if_true]
    exact .bind_eq (literalToIndex_rel ..) fun _ => .bind_eq ih fun _ => .pure_eq _
  | case5 ch joint span rest h h1 h2 =>
    obtain ⟨rfl, rfl⟩ := h
    cases rest with
    | ident n a r => exact (h1 _ _ _ rfl).elim
    | literal n a r => exact (h2 _ _ _ rfl).elim
    | _ => rfl
  | case6 ch joint span rest h ih =>
    rw [LTokens.erase, SubstMap.substituteVars.eq_def]
    simp only [h, if_false]
    exact .bind_eq ih fun _ => .pure_eq _
  | case7 name a rest ih =>
    simp only [LTokens.erase, SubstMap.substituteVars]
    exact .bind_eq ih fun _ => rfl
  | case8 text a rest ih =>
    simp only [LTokens.erase, SubstMap.substituteVars]
    exact .bind_eq ih fun _ => rfl

variable (sp : Spans S) (fx : Foreign)

theorem rewriteProvided_rel (index : Nat) (rule : List ANode) (block : LBlock S) :
    OutRel EK Eq (rewriteProvided fx index rule block) (Verif.rewriteProvided index rule block.delim block.body.erase) := by
  unfold rewriteProvided Verif.rewriteProvided
  split
  · rfl
  · exact .bind_eq (substituteVars_rel ..) fun _ => rfl

variable {gi : GrammarInfo} {rules : List (LRule S)}

theorem buildConstructor_rel (hr : gi.productionRules = rules.map LRule.erase) (index : Nat) :
    OutRel EK Eq (buildConstructor sp fx rules index) (Verif.buildConstructor gi index) := by
  unfold buildConstructor Verif.buildConstructor GrammarInfo.productionRule
  rw [hr]
  refine .bind (.index_map ..) fun a b e => ?_
  subst e
  cases hb : a.block with
  | some b =>
    simp only [LRule.erase, hb, Option.map_some]
    exact rewriteProvided_rel ..
  | none =>
    simp only [LRule.erase, hb, Option.map_none, Option.isSome_map, List.length_map]
    split
    · split <;> rfl
    · rfl

/-- Errors at the whole invocation have the kind of the error. -/
theorem general_rel {α : Type} (x : Outcome MacroError α) : OutRel EK Eq (x.mapErr (generalError sp fx)) x := by
  cases x <;> first | rfl | exact True.intro

variable {o : HashOrder} {lex : Lexer}

theorem applyGoto_rel (hr : gi.productionRules = rules.map LRule.erase) (site : List Nat) (k l : Nat) (ss : List Nat) :
    OutRel EK Eq (applyGoto sp fx o gi rules site k l ss) (Verif.applyGoto o gi site k l ss) := by
  refine .bind_eq (general_rel ..) fun map => .bind_eq (buildConstructor_rel sp fx hr k) fun c => ?_
  rcases map with _ | ⟨x, _ | _⟩ <;> rfl

theorem reduceArms_rel (hr : gi.productionRules = rules.map LRule.erase) (smap : StateMap Sym) (state : Nat)
    (l : List (Nat × List (AugTok Sym))) :
    OutRel EK Eq (reduceArms sp fx o lex gi rules smap state l) (Verif.reduceArms o lex gi smap state l) := by
  induction l with
  | nil => rfl
  | cons p l ih =>
    obtain ⟨k, toks⟩ := p
    exact .bind_eq (general_rel ..) fun _ => .bind_eq (general_rel ..) fun _ => .bind_eq (general_rel ..) fun _ =>
      .bind_eq (applyGoto_rel sp fx hr ..) fun _ => .bind_eq ih fun _ => rfl

theorem acceptArm_rel (hr : gi.productionRules = rules.map LRule.erase) (smap : StateMap Sym) (state : Nat)
    (t : Option (AugTok Sym)) :
    OutRel EK Eq (acceptArm sp fx o lex gi rules smap state t) (Verif.acceptArm o lex gi smap state t) := by
  cases t with
  | none => rfl
  | some t =>
    exact .bind_eq (general_rel ..) fun _ => .bind_eq (general_rel ..) fun _ => .bind_eq (general_rel ..) fun _ =>
      .bind_eq (.assert _) fun _ => .bind_eq (buildConstructor_rel sp fx hr 0) fun _ => rfl

theorem generateState_rel (hr : gi.productionRules = rules.map LRule.erase) (smap : StateMap Sym) (state : Nat) :
    OutRel EK Eq (generateState sp fx o lex gi rules smap state) (Verif.generateState o lex gi smap state) :=
  .bind_eq (general_rel ..) fun _ => .bind_eq (general_rel ..) fun _ => .bind_eq (reduceArms_rel sp fx hr ..) fun _ =>
    .bind_eq (acceptArm_rel sp fx hr ..) fun _ => .bind_eq (general_rel ..) fun _ => rfl

theorem generateStates_rel (hr : gi.productionRules = rules.map LRule.erase) (smap : StateMap Sym) (l : List Nat) :
    OutRel EK Eq (generateStates sp fx o lex gi rules smap l) (Verif.generateStates o lex gi smap l) := by
  induction l with
  | nil => rfl
  | cons s l ih => exact .bind_eq (generateState_rel sp fx hr ..) fun _ => .bind_eq ih fun _ => rfl

theorem generateParser_rel (hr : gi.productionRules = rules.map LRule.erase) :
    OutRel EK Eq (generateParser sp fx o lex gi rules) (Verif.generateParser o lex gi) :=
  .bind_eq (general_rel ..) fun _ => .bind_eq (general_rel ..) fun _ => .bind_eq (general_rel ..) fun _ =>
    .bind_eq (general_rel ..) fun _ => .bind_eq (generateStates_rel sp fx hr ..) fun _ => rfl

/-- The macro does not look at spans. -/
theorem buildGrammar_rel (tx : Text) (fuel : Nat) (T : LTokens S) :
    OutRel EK Eq (buildGrammar sp fx o lex tx fuel T) (Verif.buildGrammar o lex tx fuel T.erase) := by
  have h := parseGrammar_rel sp tx fuel (stream sp tx T)
  rw [show (stream sp tx T).erase = Verif.tokenize tx .empty T.erase from tokenize_erase sp tx T .empty] at h
  refine .bind h fun a b e => ?_
  obtain ⟨gi, rules⟩ := a
  obtain ⟨rfl, h1⟩ := e
  exact .bind_eq (generateParser_rel sp fx h1) fun _ => rfl

/-! ### Where the error in a constructor is -/

theorem Replaced.change {var var' : Nat → String} {rule : List ANode} {t out : TokenStream} {used : List Nat}
    (h : Replaced var rule t out used) : ∃ out', Replaced var' rule t out' used := by
  induction h with
  | nil => exact ⟨_, .nil⟩
  | group _ _ ih1 ih2 =>
    obtain ⟨a, h1⟩ := ih1
    obtain ⟨b, h2⟩ := ih2
    exact ⟨_, .group h1 h2⟩
  | ident _ ih =>
    obtain ⟨a, h1⟩ := ih
    exact ⟨_, .ident h1⟩
  | literal _ ih =>
    obtain ⟨a, h1⟩ := ih
    exact ⟨_, .literal h1⟩
  | punct h _ ih =>
    obtain ⟨a, h1⟩ := ih
    exact ⟨_, .punct h h1⟩
  | name h _ ih =>
    obtain ⟨a, h1⟩ := ih
    exact ⟨_, .name h h1⟩
  | index h _ ih =>
    obtain ⟨a, h1⟩ := ih
    exact ⟨_, .index h h1⟩

/-- Substitution succeeds exactly if there is nothing wrong. -/
theorem fine_iff {rule : List ANode} {T : LTokens S} :
    (∃ out, substituteVars fx (SubstMap.build rule) rule T = .ok out) ↔ Fine rule T.erase := by
  have h := substituteVars_rel fx (SubstMap.build rule) rule T
  constructor
  · rintro ⟨out, h1⟩
    rw [h1] at h
    cases h2 : (SubstMap.build rule).substituteVars rule T.erase with
    | ok b =>
      obtain ⟨used, h3⟩ := SubstMap.substituteVars_sound T.erase h2
      exact ⟨_, _, _, h3⟩
    | _ => rw [h2] at h; exact h.elim
  · rintro ⟨var, out, used, h1⟩
    obtain ⟨out', h2⟩ := Replaced.change (var' := boundVariable) h1
    rw [SubstMap.substituteVars_complete h2] at h
    cases h3 : substituteVars fx (SubstMap.build rule) rule T with
    | ok b => exact ⟨b, rfl⟩
    | _ => rw [h3] at h; exact h.elim

theorem lookupLabel_ok {rule : List ANode} {name : String} {a : S} {i : Nat} :
    lookupLabel (SubstMap.build rule) name a = .ok i ↔ NameRef rule name i := by
  rw [← SubstMap.lookupLabel_iff]
  have h := lookupLabel_rel (SubstMap.build rule) name a
  revert h
  cases lookupLabel (SubstMap.build rule) name a <;> cases (SubstMap.build rule).lookupLabel name <;> intro h <;>
    first
    | exact h.elim
    | (have h : _ = _ := h; simp [h])
    | simp

theorem literalToIndex_ok {rule : List ANode} {text : String} {a : S} {i : Nat} :
    literalToIndex fx (SubstMap.build rule) text a rule = .ok i ↔ IndexRef rule text i := by
  rw [← SubstMap.literalToIndex_iff]
  have h := literalToIndex_rel fx (SubstMap.build rule) text a rule
  revert h
  cases literalToIndex fx (SubstMap.build rule) text a rule <;>
    cases (SubstMap.build rule).literalToIndex text rule <;> intro h <;>
    first
    | exact h.elim
    | (have h : _ = _ := h; simp [h])
    | simp

/-- What the messages of errors in constructors tell. -/
def Tells (rule : List ANode) (d : Diag S) : Prop :=
  (d.kind = .indexOutOfRange →
    d.message = "Index is out of range of rules, expected within [0, " ++ toString rule.length ++ ")") ∧
  (d.kind = .indexOfEpsilon → ∃ n : Nat, rule[n]? = some .epsilon ∧
    d.message = "Index " ++ toString n ++ " refers to `!` which matches nothing")

theorem lookupLabel_err {rule : List ANode} {name : String} {a b : S} {d : Diag S} {rest : LTokens S}
    (h : lookupLabel (SubstMap.build rule) name b = .err d) :
    BadRef rule (.punct '#' false a (.ident name b rest)) d.kind d.span ∧ Tells rule d := by
  have hs := SubstMap.build_says rule name
  unfold lookupLabel at h
  generalize (SubstMap.build rule).labelMap.lookup name = x at h hs
  rcases x with _ | _ | i
  · cases h
    exact ⟨.unknown hs, nofun, nofun⟩
  · cases h
    obtain ⟨i, j, h1, h2, h3⟩ := hs
    exact ⟨.ambiguous h1 h2 h3, nofun, nofun⟩
  · cases h

theorem literalToIndex_err {rule : List ANode} {text : String} {a b : S} {d : Diag S} {rest : LTokens S}
    (h : literalToIndex fx (SubstMap.build rule) text b rule = .err d) :
    BadRef rule (.punct '#' false a (.literal text b rest)) d.kind d.span ∧ Tells rule d := by
  unfold literalToIndex at h
  cases hp : SubstMap.parseUsize text with
  | none =>
    rw [hp] at h
    cases h
    refine ⟨.number fun n hn => ?_, nofun, nofun⟩
    rw [SubstMap.parseUsize_iff.mpr hn] at hp
    cases hp
  | some n =>
    rw [hp] at h
    have hn : Number text n := SubstMap.parseUsize_iff.mp hp
    dsimp only at h
    split at h
    · rename_i hle
      cases h
      exact ⟨.range hn hle, fun _ => rfl, nofun⟩
    · rename_i hlt
      have hlt : n < rule.length := Nat.lt_of_not_le hlt
      rw [Outcome.index_eq_ok.mpr (List.getElem?_eq_getElem hlt), Outcome.ok_bind] at h
      split at h
      · rename_i he
        cases h
        have he : rule[n]? = some .epsilon := by
          rw [List.getElem?_eq_getElem hlt]
          cases hk : rule[n] <;> rw [hk] at he <;> first | rfl | cases he
        exact ⟨.epsilon hn he, nofun, fun _ => ⟨n, he, rfl⟩⟩
      · cases h

theorem substituteVars_err {rule : List ANode} {T : LTokens S} {d : Diag S}
    (h : substituteVars fx (SubstMap.build rule) rule T = .err d) : BadRef rule T d.kind d.span ∧ Tells rule d := by
  fun_induction substituteVars fx (SubstMap.build rule) rule T with
  | case1 => cases h
  | case2 dl a b inner rest ih1 ih2 =>
    rcases bind_err h with h1 | ⟨x, h1, h⟩
    · exact ⟨.inGroup (ih1 h1).1, (ih1 h1).2⟩
    · rcases bind_err h with h2 | ⟨y, h2, h⟩
      · exact ⟨.afterGroup ((fine_iff fx).mp ⟨x, h1⟩) (ih2 h2).1, (ih2 h2).2⟩
      · cases h
  | case3 ch joint span hc name at_ rest ih =>
    obtain ⟨rfl, rfl⟩ := hc
    rcases bind_err h with h1 | ⟨x, h1, h⟩
    · exact lookupLabel_err h1
    · rcases bind_err h with h2 | ⟨y, h2, h⟩
      · exact ⟨.afterName (lookupLabel_ok.mp h1) (ih h2).1, (ih h2).2⟩
      · cases h
  | case4 ch joint span hc text at_ rest ih =>
    obtain ⟨rfl, rfl⟩ := hc
    rcases bind_err h with h1 | ⟨x, h1, h⟩
    · exact literalToIndex_err fx h1
    · rcases bind_err h with h2 | ⟨y, h2, h⟩
      · exact ⟨.afterIndex ((literalToIndex_ok fx).mp h1) (ih h2).1, (ih h2).2⟩
      · cases h
  | case5 ch joint span rest hc h1 h2 =>
    obtain ⟨rfl, rfl⟩ := hc
    cases h
    cases rest with
    | ident n a r => exact (h1 _ _ _ rfl).elim
    | literal n a r => exact (h2 _ _ _ rfl).elim
    | nil => exact ⟨.nothing, nofun, nofun⟩
    | group => exact ⟨.group, nofun, nofun⟩
    | punct => exact ⟨.punct, nofun, nofun⟩
  | case6 ch joint span rest hc ih =>
    rcases bind_err h with h1 | ⟨x, h1, h⟩
    · refine ⟨.afterPunct ?_ (ih h1).1, (ih h1).2⟩
      by_cases h2 : ch = '#'
      · right
        cases joint with
        | false => exact (hc ⟨rfl, h2⟩).elim
        | true => rfl
      · exact .inl h2
    · cases h
  | case7 name a rest ih =>
    rcases bind_err h with h1 | ⟨x, h1, h⟩
    · exact ⟨.afterIdent (ih h1).1, (ih h1).2⟩
    · cases h
  | case8 text a rest ih =>
    rcases bind_err h with h1 | ⟨x, h1, h⟩
    · exact ⟨.afterLiteral (ih h1).1, (ih h1).2⟩
    · cases h

theorem lookupLabel_said {rule : List ANode} {name : String} {b : S} :
    (.production name ∉ rule → ∃ m, lookupLabel (SubstMap.build rule) name b = .err ⟨.unknownLabel, m, b⟩) ∧
    ∀ i j : Nat, i ≠ j → rule[i]? = some (.production name) → rule[j]? = some (.production name) →
      ∃ m, lookupLabel (SubstMap.build rule) name b = .err ⟨.ambiguousLabel, m, b⟩ := by
  have hs := SubstMap.build_says rule name
  unfold lookupLabel
  generalize (SubstMap.build rule).labelMap.lookup name = x at hs
  rcases x with _ | _ | i
  · exact ⟨fun _ => ⟨_, rfl⟩, fun i j _ h _ => (hs (List.mem_of_getElem? h)).elim⟩
  · obtain ⟨i, j, h1, h2, h3⟩ := hs
    exact ⟨fun h => (h (List.mem_of_getElem? h2)).elim, fun _ _ _ _ _ => ⟨_, rfl⟩⟩
  · exact ⟨fun h => (h (List.mem_of_getElem? hs.1)).elim, fun a b h h1 h2 => (h ((hs.2 a h1).trans (hs.2 b h2).symm)).elim⟩

/-- The error is reported whenever there is one. -/
theorem substituteVars_complete {rule : List ANode} {T : LTokens S} {k : MacroError} {s : S} (h : BadRef rule T k s) :
    ∃ m, substituteVars fx (SubstMap.build rule) rule T = .err ⟨k, m, s⟩ := by
  induction h with
  | @unknown name a b rest h =>
    obtain ⟨m, h1⟩ := (lookupLabel_said (b := b)).1 h
    exact ⟨m, by simp only [substituteVars, and_self, if_true, h1]; rfl⟩
  | @ambiguous name i j a b rest h h1 h2 =>
    obtain ⟨m, h1⟩ := (lookupLabel_said (b := b)).2 _ _ h h1 h2
    exact ⟨m, by simp only [substituteVars, and_self, if_true, h1]; rfl⟩
  | @number text a b rest h =>
    refine ⟨fx.intError text, ?_⟩
    simp only [substituteVars, and_self, if_true, literalToIndex]
    cases hp : SubstMap.parseUsize text with
    | none => rfl
    | some n => exact (h n (SubstMap.parseUsize_iff.mp hp)).elim
  | @range text n a b rest h h1 =>
    refine ⟨"Index is out of range of rules, expected within [0, " ++ toString rule.length ++ ")", ?_⟩
    simp only [substituteVars, and_self, if_true, literalToIndex]
    rw [SubstMap.parseUsize_iff.mpr h]
    simp only [show (SubstMap.build rule).numNodes ≤ n from h1, if_true]
    rfl
  | @epsilon text n a b rest h h1 =>
    refine ⟨"Index " ++ toString n ++ " refers to `!` which matches nothing", ?_⟩
    simp only [substituteVars, and_self, if_true, literalToIndex]
    rw [SubstMap.parseUsize_iff.mpr h]
    have hlt : n < rule.length := (List.getElem?_eq_some_iff.mp h1).1
    simp only [show ¬ (SubstMap.build rule).numNodes ≤ n from Nat.not_le.mpr hlt, if_false, Outcome.index_eq_ok.mpr h1,
      Outcome.ok_bind]
    rfl
  | nothing => exact ⟨_, rfl⟩
  | group => exact ⟨_, rfl⟩
  | punct => exact ⟨_, rfl⟩
  | inGroup _ ih =>
    obtain ⟨m, h1⟩ := ih
    exact ⟨m, by simp only [substituteVars, h1]; rfl⟩
  | afterGroup h _ ih =>
    obtain ⟨m, h1⟩ := ih
    obtain ⟨out, h2⟩ := (fine_iff fx).mpr h
    exact ⟨m, by simp only [substituteVars, h2, Outcome.ok_bind, h1]; rfl⟩
  | afterIdent _ ih =>
    obtain ⟨m, h1⟩ := ih
    exact ⟨m, by simp only [substituteVars, h1]; rfl⟩
  | afterLiteral _ ih =>
    obtain ⟨m, h1⟩ := ih
    exact ⟨m, by simp only [substituteVars, h1]; rfl⟩
  | @afterPunct ch joint a s k rest h _ ih =>
    obtain ⟨m, h1⟩ := ih
    refine ⟨m, ?_⟩
    have h2 : ¬ (joint = false ∧ ch = '#') := by
      rintro ⟨rfl, rfl⟩
      rcases h with h | h
      · exact h rfl
      · cases h
    rw [substituteVars.eq_def]
    simp only [h2, if_false, h1]
    rfl
  | afterName h _ ih =>
    obtain ⟨m, h1⟩ := ih
    exact ⟨m, by simp only [substituteVars, and_self, if_true, lookupLabel_ok.mpr h, Outcome.ok_bind, h1]; rfl⟩
  | afterIndex h _ ih =>
    obtain ⟨m, h1⟩ := ih
    exact ⟨m, by simp only [substituteVars, and_self, if_true, (literalToIndex_ok fx).mpr h, Outcome.ok_bind, h1]; rfl⟩

/-! ### Where errors come from -/

/-- All errors are of some sort. -/
structure Errs {ε α : Type} (E : ε → Prop) (x : Outcome ε α) : Prop where
  of : ∀ e, x = .err e → E e

namespace Errs
variable {ε ε' α β : Type} {E : ε → Prop}

theorem bind {x : Outcome ε α} {f : α → Outcome ε β} (h : Errs E x) (hf : ∀ a, Errs E (f a)) : Errs E (x >>= f) := by
  refine ⟨fun e h1 => ?_⟩
  rcases bind_err h1 with h2 | ⟨a, -, h2⟩
  · exact h.of e h2
  · exact (hf a).of e h2

theorem pure (a : α) : Errs E (Pure.pure a : Outcome ε α) := ⟨nofun⟩

theorem none {x : Outcome ε α} (h : OutRel (fun _ _ : ε => False) Eq x x) : Errs E x := by
  refine ⟨fun e h1 => ?_⟩
  rw [h1] at h
  exact h.elim

theorem index (l : List α) (i : Nat) : Errs E (Outcome.index l i : Outcome ε α) := none (.index l i)
theorem unwrap (x : Option α) : Errs E (Outcome.unwrap x : Outcome ε α) := none (.unwrap x)
theorem assert (b : Bool) : Errs E (Outcome.assert b : Outcome ε Unit) := none (.assert b)

theorem mapErr {x : Outcome ε α} {f : ε → ε'} {E' : ε' → Prop} (h : Errs E x) (hf : ∀ e, E e → E' (f e)) :
    Errs E' (x.mapErr f) := by
  refine ⟨fun e h1 => ?_⟩
  obtain ⟨e', h2, rfl⟩ := mapErr_err h1
  exact hf _ (h.of _ h2)

end Errs

/-- Errors of terminals, and of tables. -/
def TerminalKind (e : MacroError) : Prop := e = .patternForLiteral ∨ e = .badLiteral
def GeneralKind (e : MacroError) : Prop := TerminalKind e ∨ ∃ te, e = .table te

theorem asLiteral_errs (s : Sym) : Errs GeneralKind (s.asLiteral lex) := by
  unfold Sym.asLiteral
  split
  · exact ⟨by rintro _ ⟨⟩; exact .inl (.inl rfl)⟩
  · split
    · exact .pure _
    · exact ⟨by rintro _ ⟨⟩; exact .inl (.inr rfl)⟩

theorem asIdent_errs (s : Sym) : Errs GeneralKind (s.asIdent lex) := .bind (.assert _) fun _ => .pure _

theorem tryBuildPattern_errs (tt : TerminalType) (s : Sym) : Errs GeneralKind (tryBuildPattern lex tt s) := by
  unfold tryBuildPattern
  split
  · exact .bind (asLiteral_errs s) fun _ => .pure _
  · refine .bind (asIdent_errs s) fun _ => ?_
    split <;> exact .pure _

theorem tryBuildRhs_errs (tt : TerminalType) (s : Sym) : Errs GeneralKind (tryBuildRhs lex tt s) := by
  unfold tryBuildRhs
  split
  · exact .bind (asLiteral_errs s) fun _ => .pure _
  · refine .bind (asIdent_errs s) fun _ => ?_
    split <;> exact .pure _

theorem tokenMatcher_errs (tt : TerminalType) (t : AugTok Sym) : Errs GeneralKind (tokenMatcher lex tt t) := by
  unfold tokenMatcher
  split
  · exact .bind (tryBuildPattern_errs ..) fun _ => .pure _
  · exact .pure _
  · exact ⟨nofun⟩

theorem tokenMatchers_errs (tt : TerminalType) (l : List (AugTok Sym)) : Errs GeneralKind (tokenMatchers lex tt l) := by
  induction l with
  | nil => exact .pure _
  | cons t l ih => exact .bind (tokenMatcher_errs ..) fun _ => .bind ih fun _ => .pure _

theorem collect_errs (l : List (AugTok Sym × Action)) (a : LikeActions) : Errs GeneralKind (LikeActions.collect l a) := by
  fun_induction LikeActions.collect l a with
  | case1 => exact .pure _
  | case2 _ _ _ _ ih => exact ih
  | case3 _ _ _ _ ih => exact ih
  | case4 _ _ _ ih => exact .bind (.assert _) fun _ => ih

theorem shiftArms_errs (l : List (AugTok Sym × Nat)) : Errs GeneralKind (LikeActions.shiftArms lex gi l) := by
  induction l with
  | nil => exact .pure _
  | cons p l ih =>
    obtain ⟨t, n⟩ := p
    exact .bind (tokenMatcher_errs ..) fun _ => .bind (.unwrap _) fun _ => .bind (tryBuildRhs_errs ..) fun _ =>
      .bind ih fun _ => .pure _

theorem extractVariant_errs (t : StateType Sym) : Errs GeneralKind (extractVariant lex t) := by
  unfold extractVariant
  split
  · split
    · exact .bind (asIdent_errs _) fun _ => .pure _
    · exact .pure _
  · exact .pure _

theorem unionBackEdges_errs (smap : StateMap Sym) (l acc : List Nat) :
    Errs GeneralKind (unionBackEdges smap l acc) := by
  induction l generalizing acc with
  | nil => exact .pure _
  | cons s l ih => exact .bind (.bind (.index _ _) fun _ => .pure _) fun _ => ih _

theorem bindNodes_errs (smap : StateMap Sym) (site : List Nat) (l : List (Nat × INode)) (ss : List Nat) :
    Errs GeneralKind (bindNodes o lex smap site l ss) := by
  induction l generalizing ss with
  | nil => exact .pure _
  | cons p l ih =>
    obtain ⟨i, n⟩ := p
    unfold bindNodes
    split
    · exact ih _
    · exact .bind (.unwrap _) fun _ => .bind (.bind (.index _ _) fun _ => .pure _) fun _ =>
        .bind (extractVariant_errs _) fun _ => .bind (unionBackEdges_errs ..) fun _ => .bind (ih _) fun _ => .pure _

theorem gotoMap_errs (label : Nat) (l : List Nat) (m : List (Nat × List Nat)) : Errs GeneralKind (gotoMap gi label l m) := by
  induction l generalizing m with
  | nil => exact .pure _
  | cons s l ih => exact .bind (.none (LRTable.getGoto_rel ..)) fun _ => .bind (.unwrap _) fun _ => ih _

theorem stateActions_errs (t : LRTable) (ig : IndexedGrammar Sym String) (s : Nat) :
    Errs GeneralKind (t.stateActions ig s : Outcome MacroError _) := by
  have hs : ∀ {α : Type} (l : List α) (a b : Nat), Errs GeneralKind (LRTable.slice l a b : Outcome MacroError _) := by
    intro α l a b
    unfold LRTable.slice
    split
    · exact .pure _
    · exact ⟨nofun⟩
  have hc : ∀ l, Errs GeneralKind (LRTable.collectActions ig.vocab l : Outcome MacroError _) := by
    intro l
    induction l with
    | nil => exact .pure _
    | cons p l ih =>
      obtain ⟨_ | a, id⟩ := p
      · exact ih
      · refine .bind ?_ fun _ => .bind ih fun _ => .pure _
        cases id with
        | token i => exact .bind (.index _ _) fun _ => .pure _
        | _ => exact .pure _
  exact .bind (.bind (.assert _) fun _ => .pure _) fun _ => .bind (.assert _) fun _ => .bind (hs _ _ _) fun _ => hc _

theorem stateDataTypes_errs (smap : StateMap Sym) (l : List Nat) : Errs GeneralKind (stateDataTypes gi smap l) := by
  induction l with
  | nil => exact .pure _
  | cons s l ih =>
    refine .bind (.bind (.bind (.index _ _) fun _ => .pure _) fun t => ?_) fun _ => .bind ih fun _ => .pure _
    cases t with
    | reduce l => exact .bind (.bind (.index _ _) fun _ => .pure _) fun _ => .unwrap _
    | _ => exact .pure _

/-- Errors of the code generator: in general, or of a constructor. -/
def Source (rules : List (LRule S)) (d : Diag S) : Prop :=
  (∃ k, GeneralKind k ∧ d = generalError sp fx k) ∨ ∃ k, buildConstructor sp fx rules k = .err d

theorem general_errs {α : Type} {x : Outcome MacroError α} (h : Errs GeneralKind x) :
    Errs (Source sp fx rules) (x.mapErr (generalError sp fx)) :=
  h.mapErr fun k hk => .inl ⟨k, hk, rfl⟩

theorem constructor_errs (k : Nat) : Errs (Source sp fx rules) (buildConstructor sp fx rules k) :=
  ⟨fun _ h => .inr ⟨k, h⟩⟩

theorem applyGoto_errs (site : List Nat) (k l : Nat) (ss : List Nat) :
    Errs (Source sp fx rules) (applyGoto sp fx o gi rules site k l ss) := by
  refine .bind (general_errs sp fx (gotoMap_errs ..)) fun map => .bind (constructor_errs sp fx k) fun c => ?_
  rcases map with _ | ⟨x, _ | _⟩ <;> exact .pure _

theorem reduceArms_errs (smap : StateMap Sym) (state : Nat) (l : List (Nat × List (AugTok Sym))) :
    Errs (Source sp fx rules) (reduceArms sp fx o lex gi rules smap state l) := by
  induction l with
  | nil => exact .pure _
  | cons p l ih =>
    obtain ⟨k, toks⟩ := p
    exact .bind (general_errs sp fx (tokenMatchers_errs ..)) fun _ => .bind (general_errs sp fx (.index _ _)) fun _ =>
      .bind (general_errs sp fx (bindNodes_errs ..)) fun _ => .bind (applyGoto_errs sp fx ..) fun _ =>
        .bind ih fun _ => .pure _

theorem acceptArm_errs (smap : StateMap Sym) (state : Nat) (t : Option (AugTok Sym)) :
    Errs (Source sp fx rules) (acceptArm sp fx o lex gi rules smap state t) := by
  cases t with
  | none => exact .pure _
  | some t =>
    exact .bind (general_errs sp fx (tokenMatcher_errs ..)) fun _ => .bind (general_errs sp fx (.index _ _)) fun _ =>
      .bind (general_errs sp fx (bindNodes_errs ..)) fun _ => .bind (.assert _) fun _ =>
        .bind (constructor_errs sp fx 0) fun _ => .pure _

theorem generateState_errs (smap : StateMap Sym) (state : Nat) :
    Errs (Source sp fx rules) (generateState sp fx o lex gi rules smap state) := by
  refine .bind (general_errs sp fx (.bind (stateActions_errs ..) fun _ => collect_errs ..)) fun a =>
    .bind (general_errs sp fx ?_) fun _ =>
      .bind (reduceArms_errs sp fx ..) fun _ => .bind (acceptArm_errs sp fx ..) fun _ =>
        .bind (general_errs sp fx (shiftArms_errs ..)) fun _ => .pure _
  unfold LikeActions.overlapCheck
  split
  · exact .pure _
  · exact tokenMatchers_errs ..

theorem generateStates_errs (smap : StateMap Sym) (l : List Nat) :
    Errs (Source sp fx rules) (generateStates sp fx o lex gi rules smap l) := by
  induction l with
  | nil => exact .pure _
  | cons s l ih => exact .bind (generateState_errs sp fx ..) fun _ => .bind ih fun _ => .pure _

/-- Every error of the code generator is at the whole invocation, or that of a constructor. -/
theorem generateParser_errs : Errs (Source sp fx rules) (generateParser sp fx o lex gi rules) :=
  .bind (general_errs sp fx (Errs.mapErr (E := fun _ => True) ⟨fun _ _ => trivial⟩ fun e _ => .inr ⟨e, rfl⟩)) fun _ =>
    .bind (general_errs sp fx (.bind (.index _ _) fun _ => .pure _)) fun _ =>
      .bind (general_errs sp fx (.unwrap _)) fun _ =>
        .bind (general_errs sp fx (stateDataTypes_errs ..)) fun _ =>
          .bind (generateStates_errs sp fx ..) fun _ => .pure _

/-- What is wrong with a constructor. -/
theorem constructor_err {k : Nat} {d : Diag S} (h : buildConstructor sp fx rules k = .err d) :
    ∃ r, rules[k]? = some r ∧
      ((∃ b, r.block = some b ∧ (b.delim ≠ .brace ∧ d.kind = .constructorDelimiter ∧ d.span = b.span ∨
          b.delim = .brace ∧ BadRef (r.rule.map (·.1)) b.body d.kind d.span ∧ Tells (r.rule.map (·.1)) d)) ∨
        r.block = none ∧ r.returnType.isSome ∧ r.rule.length ≠ 1 ∧ d.kind = .constructorMissing ∧
          d.span = ruleSpan sp r.rule) := by
  rcases bind_err h with h1 | ⟨r, h1, h⟩
  · exact ((Errs.index (E := fun _ => False) _ _).of _ h1).elim
  refine ⟨r, Outcome.index_eq_ok.mp h1, ?_⟩
  cases hb : r.block with
  | some b =>
    simp only [hb] at h
    refine .inl ⟨b, rfl, ?_⟩
    unfold rewriteProvided at h
    split at h
    · rename_i hd
      cases h
      exact .inl ⟨hd, rfl, rfl⟩
    · rename_i hd
      rcases bind_err h with h2 | ⟨x, h2, h⟩
      · exact .inr ⟨Decidable.not_not.mp hd, substituteVars_err fx h2⟩
      · cases h
  | none =>
    simp only [hb] at h
    split at h
    · rename_i ht
      split at h
      · rename_i hl
        cases h
        exact .inr ⟨rfl, ht, hl, rfl, rfl⟩
      · cases h
    · cases h

end Verif.Located
