import Verif.Model.Display
import Verif.Model.RuntimeText
import Verif.Props.Agree

/-!
# C73: what the text of a failed parse tells
-/

set_option linter.unusedSectionVars false
set_option autoImplicit false

namespace Verif.C73
open Spec

variable {P V E F' σ : Type} [DecidableEq P] {lex : Lexer} {o : HashOrder} {gi : GrammarInfo} {prog : Program}

/-- The texts of user errors do not look like those of the parser. -/
def Own (user : E → List Char) : Prop :=
  ∀ e, ¬ "Failed to parse: unexpected ".toList <+: user e ∧ ¬ "Token ".toList <+: user e

/-- `text` is how errors are printed: by `{}` or by `{:?}`. -/
def Prints (dbg : Token P → List Char) (user : E → List Char) (text : ParseErr P E → List Char) : Prop :=
  text = RuntimeText.display dbg user ∨ text = RuntimeText.debug dbg user

theorem Prints.rejected {dbg : Token P → List Char} {user : E → List Char} {text : ParseErr P E → List Char}
    (h : Prints dbg user text) (n : Option (Token P)) : text (.parseError n) =
      match n with
      | none => "Failed to parse: unexpected None".toList
      | some a => "Failed to parse: unexpected Some(".toList ++ dbg a ++ ")".toList := by
  have e : "Failed to parse: unexpected ".toList ++ "Some(".toList = "Failed to parse: unexpected Some(".toList := by
    decide +kernel
  have e' : "Failed to parse: unexpected ".toList ++ "None".toList = "Failed to parse: unexpected None".toList := by
    decide +kernel
  have key : RuntimeText.rejected dbg n = match n with
      | none => "Failed to parse: unexpected None".toList
      | some a => "Failed to parse: unexpected Some(".toList ++ dbg a ++ ")".toList := by
    cases n with
    | none => exact e'
    | some a =>
      rw [← e]
      show _ ++ (_ ++ (_ ++ _)) = _ ++ _ ++ _ ++ _
      rw [List.append_assoc, List.append_assoc]
      rfl
  rcases h with rfl | rfl <;> exact key

theorem Prints.overlapping {dbg : Token P → List Char} {user : E → List Char} {text : ParseErr P E → List Char}
    (h : Prints dbg user text) (a : Token P) : text (.overlapping (some a)) =
      "Token Some(".toList ++ dbg a ++
        ") matches multiple rules. Disambiguate matchers for tokens of this type.".toList := by
  have e : "Token ".toList ++ "Some(".toList = "Token Some(".toList := by decide +kernel
  have e' : [')'] ++ " matches multiple rules. Disambiguate matchers for tokens of this type.".toList =
      ") matches multiple rules. Disambiguate matchers for tokens of this type.".toList := by decide +kernel
  have key : RuntimeText.overlapping dbg (some a) = "Token Some(".toList ++ dbg a ++
      ") matches multiple rules. Disambiguate matchers for tokens of this type.".toList := by
    rw [← e, ← e']
    show _ ++ ((_ ++ (_ ++ _)) ++ _) = _
    simp only [List.append_assoc]
  rcases h with rfl | rfl <;> exact key

theorem Prints.user {dbg : Token P → List Char} {user : E → List Char} {text : ParseErr P E → List Char}
    (h : Prints dbg user text) (e : E) : text (.user e) = user e := by
  rcases h with rfl | rfl <;> rfl

theorem Prints.overlapping_prefix {dbg : Token P → List Char} {user : E → List Char}
    {text : ParseErr P E → List Char} (h : Prints dbg user text) (n : Option (Token P)) :
    "Token ".toList <+: text (.overlapping n) := by
  rcases h with rfl | rfl <;> exact List.prefix_append _ _

theorem Prints.rejected_prefix {dbg : Token P → List Char} {user : E → List Char}
    {text : ParseErr P E → List Char} (h : Prints dbg user text) (n : Option (Token P)) :
    "Failed to parse: unexpected ".toList <+: text (.parseError n) := by
  rcases h with rfl | rfl <;> exact List.prefix_append _ _

/-- No text begins in both ways. -/
theorem not_both {s : List Char} (h : "Failed to parse: unexpected ".toList <+: s) : ¬ "Token ".toList <+: s := by
  obtain ⟨a, rfl⟩ := h
  rintro ⟨b, hb⟩
  have := congrArg List.head? hb
  exact absurd this (by simp)

/-- **C73, partial: rejections.** The text of a failed parse begins with "Failed to parse: unexpected " exactly if the
input was rejected, provided that no user error has such a text. Then it ends in "None" and the input has ended, or
it ends in "Some(…)" with the text of the item last pulled; the tokens before it begin a sentence if every rule
derives something. -/
theorem rejection_text_partial (h : Generated o lex gi prog) (debug : Bool) (sem : Sem P V E σ) (into : F' → E)
    (items : Nat → Option (Item P F')) (fuel : Nat) (w0 : σ) (run : Run P V E σ) (e : ParseErr P E)
    (hrun : prog.parseFallible debug sem into items fuel w0 = .ok run) (he : run.result = .error e)
    (dbg : Token P → List Char) (user : E → List Char) (hu : Own user) (text : ParseErr P E → List Char)
    (ht : Prints dbg user text) :
    ("Failed to parse: unexpected ".toList <+: text e ↔ ∃ n, e = .parseError n) ∧
    ("Failed to parse: unexpected ".toList <+: text e →
      ∃ u, (∀ i a, u[i]? = some a → items i = some (.ok a)) ∧ run.pulled = u.length + 1 ∧
        ((items u.length = none ∧ text e = "Failed to parse: unexpected None".toList) ∨
          ∃ a, items u.length = some (.ok a) ∧
            text e = "Failed to parse: unexpected Some(".toList ++ dbg a ++ ")".toList) ∧
        (gi.ProductiveRules sem → ∃ v, gi.Sentence sem (u ++ v))) := by
  have hiff : "Failed to parse: unexpected ".toList <+: text e ↔ ∃ n, e = .parseError n := by
    constructor
    · intro hp
      cases e with
      | parseError n => exact ⟨n, rfl⟩
      | overlapping n => exact absurd (ht.overlapping_prefix n) (not_both hp)
      | user e => rw [ht.user] at hp; exact absurd hp (hu e).1
    · rintro ⟨n, rfl⟩
      exact ht.rejected_prefix n
  refine ⟨hiff, fun hp => ?_⟩
  obtain ⟨n, rfl⟩ := hiff.mp hp
  obtain ⟨u, h1, h2, h3, h4⟩ := C21.generated_read_is_prefix h debug sem into items fuel w0 run n hrun he
  refine ⟨u, h1, h2, ?_, h4⟩
  rw [ht.rejected]
  cases n with
  | none => exact .inl ⟨h3, rfl⟩
  | some a => exact .inr ⟨a, h3, rfl⟩

/-- **C73, partial: the token named.** If no action is missing and patterns are disjoint, the token in the text of a
rejection is one that cannot follow what was read before it; if the text ends in "None", the input is no sentence. -/
theorem rejection_text_token_partial (h : Generated o lex gi prog) (debug : Bool) (sem : Sem P V E σ)
    (into : F' → E) (items : Nat → Option (Item P F')) (fuel : Nat) (w0 : σ) (run : Run P V E σ)
    (e : ParseErr P E) (hrun : prog.parseFallible debug sem into items fuel w0 = .ok run)
    (he : run.result = .error e) (hD : gi.Disjoint sem) (hc : C07.ActionsComplete gi.grammar)
    (dbg : Token P → List Char) (user : E → List Char) (hu : Own user) (text : ParseErr P E → List Char)
    (ht : Prints dbg user text) (hp : "Failed to parse: unexpected ".toList <+: text e) :
    ∃ u, (∀ i a, u[i]? = some a → items i = some (.ok a)) ∧ run.pulled = u.length + 1 ∧
      ((items u.length = none ∧ text e = "Failed to parse: unexpected None".toList ∧ ¬ gi.Sentence sem u) ∨
        ∃ a, items u.length = some (.ok a) ∧
          text e = "Failed to parse: unexpected Some(".toList ++ dbg a ++ ")".toList ∧
          ∀ v, ¬ gi.Sentence sem (u ++ a :: v)) := by
  obtain ⟨n, rfl⟩ := (rejection_text_partial h debug sem into items fuel w0 run e hrun he dbg user hu text ht).1.mp hp
  obtain ⟨u, h1, h2, h3, h4⟩ :=
    C21.generated_rejected_is_no_prefix_partial h debug sem into items fuel w0 run n hD hc hrun he
  refine ⟨u, h1, h2, ?_⟩
  rw [ht.rejected]
  cases n with
  | none => exact .inl ⟨h3, rfl, h4⟩
  | some a => exact .inr ⟨a, h3, rfl, h4⟩

/-- **C73, partial: overlaps.** The text begins with "Token " exactly if an overlap was reported, provided that no
user error has such a text. Then it names the item last pulled, a token that two terminals of the grammar match. -/
theorem overlap_text_partial (h : Generated o lex gi prog) (debug : Bool) (sem : Sem P V E σ) (into : F' → E)
    (items : Nat → Option (Item P F')) (fuel : Nat) (w0 : σ) (run : Run P V E σ) (e : ParseErr P E)
    (hrun : prog.parseFallible debug sem into items fuel w0 = .ok run) (he : run.result = .error e)
    (dbg : Token P → List Char) (user : E → List Char) (hu : Own user) (text : ParseErr P E → List Char)
    (ht : Prints dbg user text) :
    ("Token ".toList <+: text e ↔ ∃ n, e = .overlapping n) ∧
    ("Token ".toList <+: text e →
      ∃ (u : List (Token P)) (a : Token P), (∀ i a, u[i]? = some a → items i = some (.ok a)) ∧
        run.pulled = u.length + 1 ∧ items u.length = some (.ok a) ∧
        text e = "Token Some(".toList ++ dbg a ++
          ") matches multiple rules. Disambiguate matchers for tokens of this type.".toList ∧
        debug = true ∧ ∃ t t', t ≠ t' ∧
          (∃ r ∈ gi.grammar.productions, .terminal (.token t) ∈ r.rule) ∧
          (∃ r ∈ gi.grammar.productions, .terminal (.token t') ∈ r.rule) ∧
          Matches sem gi.terminalType a t ∧ Matches sem gi.terminalType a t') := by
  have hiff : "Token ".toList <+: text e ↔ ∃ n, e = .overlapping n := by
    constructor
    · intro hp
      cases e with
      | parseError n => exact absurd hp (not_both (ht.rejected_prefix n))
      | overlapping n => exact ⟨n, rfl⟩
      | user e => rw [ht.user] at hp; exact absurd hp (hu e).2
    · rintro ⟨n, rfl⟩
      exact ht.overlapping_prefix n
  refine ⟨hiff, fun hp => ?_⟩
  obtain ⟨n, rfl⟩ := hiff.mp hp
  obtain ⟨F, kt, -, hc⟩ := h.ctx
  obtain ⟨W, c, tr, st, w, res, hW, hf⟩ := hc.finish' hrun
  obtain ⟨u, -, h2⟩ := (Sane.start.steps hf.steps).parses
  have h3 := hf.pulled
  rw [h2, List.length_append] at h3
  have hnext : st.next = items u.length := by
    rw [hf.next, h2, List.length_append]
    congr 1
    omega
  rcases hf.done with ⟨v', st', w', rfl, rfl⟩ | ⟨e', w', rfl, rfl⟩
  · cases he
  cases he
  have hg := hf.gen
  generalize hx : StepResult.fail (ParseErr.overlapping n) w' = x at hg
  cases hg with
  | overlap g1 g2 =>
    cases hx
    obtain ⟨d1, d2, a, z, k, k', hz, hne, ⟨t, hk, hm⟩, ⟨t', hk', hm'⟩, -, -⟩ := g2
    refine ⟨u, a, fun i a hi => hW _ _ (by
      rw [h2, List.getElem?_append_left (List.getElem?_eq_some_iff.mp hi).1]; exact hi), ?_, ?_, ?_, d1, t, t', ?_,
      IndexedGrammar.build_used h.grammar t (List.mem_of_getElem? hk),
      IndexedGrammar.build_used h.grammar t' (List.mem_of_getElem? hk'), hm, hm'⟩
    · show st.pulled = _
      omega
    · rw [← hnext]
      rcases hf.peek with ⟨f, hp⟩ | hp
      · exact absurd hp (g1 f)
      · rw [hp, hz]; rfl
    · rw [hz]
      exact ht.overlapping a
    · rintro rfl
      exact hne (getElem?_inj_of_nodup hc.fit.vocab.nodup hk hk')
  | stuck => cases hx
  | stream => cases hx
  | shift => cases hx
  | reduce => cases hx
  | reduceFail => cases hx
  | accept => cases hx
  | acceptFail => cases hx

/-- **C73, partial: user errors.** Every other text is the text of a user error. -/
theorem user_text_partial (dbg : Token P → List Char) (user : E → List Char) (hu : Own user)
    (text : ParseErr P E → List Char) (ht : Prints dbg user text) (e : ParseErr P E) :
    (¬ "Failed to parse: unexpected ".toList <+: text e ∧ ¬ "Token ".toList <+: text e) ↔
      ∃ x, e = .user x ∧ text e = user x := by
  constructor
  · rintro ⟨h1, h2⟩
    cases e with
    | parseError n => exact absurd (ht.rejected_prefix n) h1
    | overlapping n => exact absurd (ht.overlapping_prefix n) h2
    | user e => exact ⟨e, rfl, ht.user e⟩
  · rintro ⟨x, rfl, hx⟩
    rw [hx]
    exact hu x

/-- `{:?}` of the tokens of the samples. -/
def sampleDbg : Token Nat → List Char
  | .unit n => n.toList
  | .data n v => n.toList ++ ('(' :: (Display.decimal v ++ [')']))
  | .lit v => Display.decimal v

/-- **C73: the limit.** Nothing keeps user errors from having the texts of the parser: a stream that fails with the
error "Failed to parse: unexpected Some(Plus)" after
`Plus Num(1)` cannot be told from one that goes on with `Plus`. -/
theorem rejection_text_refuted :
    ¬ ∀ {P V E F' σ : Type} [DecidableEq P] {lex : Lexer} {o : HashOrder} {gi : GrammarInfo} {prog : Program},
      Generated o lex gi prog → ∀ (debug : Bool) (sem : Sem P V E σ) (into : F' → E)
        (items : Nat → Option (Item P F')) (fuel : Nat) (w0 : σ) (run : Run P V E σ) (e : ParseErr P E),
        prog.parseFallible debug sem into items fuel w0 = .ok run → run.result = .error e →
        ∀ (dbg : Token P → List Char) (user : E → List Char) (text : ParseErr P E → List Char),
          Prints dbg user text →
          ("Failed to parse: unexpected ".toList <+: text e ↔ ∃ n, e = .parseError n) := by
  intro hall
  obtain ⟨gi, prog, h, -, -, hi, hp⟩ := Sample.generated
  obtain ⟨run, h1, h2, -⟩ := Sample.run_of hi hp (debug := true) (ts := [.unit "Plus", .data "Num" 1])
    (last := some "Failed to parse: unexpected Some(Plus)")
    (r := .error (.user "Failed to parse: unexpected Some(Plus)")) (w := 0) (n := 3) (by decide +kernel)
  obtain ⟨n, hn⟩ := (hall h true Sample.sem id _ 50 0 run _ h1 h2 sampleDbg String.toList _ (.inl rfl)).mp
    (show _ <+: "Failed to parse: unexpected Some(Plus)".toList by decide +kernel)
  cases hn

/-- The two runs: one rejects its input at the last token, the other has been given a failing stream; both say the same. -/
example : ∃ gi prog, Generated .id Sample.lexer gi prog ∧ ∃ run run',
    prog.parseFallible true Sample.sem id (Sample.stream [.unit "Plus", .data "Num" 1, .unit "Plus"] none) 50 0 = .ok run ∧
    prog.parseFallible true Sample.sem id
      (Sample.stream [.unit "Plus", .data "Num" 1] (some "Failed to parse: unexpected Some(Plus)")) 50 0 = .ok run' ∧
    ∃ e e', run.result = .error e ∧ run'.result = .error e' ∧ e ≠ e' ∧
      RuntimeText.display sampleDbg String.toList e = RuntimeText.display sampleDbg String.toList e' := by
  obtain ⟨gi, prog, h, -, -, hi, hp⟩ := Sample.generated
  obtain ⟨run, h1, h2, -⟩ := Sample.run_of hi hp Sample.rejected
  obtain ⟨run', h1', h2', -⟩ := Sample.run_of hi hp (debug := true) (ts := [.unit "Plus", .data "Num" 1])
    (last := some "Failed to parse: unexpected Some(Plus)")
    (r := .error (.user "Failed to parse: unexpected Some(Plus)")) (w := 0) (n := 3) (by decide +kernel)
  exact ⟨gi, prog, h, run, run', h1, h1', _, _, h2, h2', (by intro e; cases e), by decide +kernel⟩

/-- User errors whose texts are their own: those of a grammar without `error_type`. -/
theorem own_no_user_error : Own RuntimeText.NoUserErrorType.display ∧ Own RuntimeText.NoUserErrorType.debug := by
  exact ⟨fun _ => (by decide +kernel : ¬ _ <+: ([] : List Char) ∧ ¬ _ <+: ([] : List Char)),
    fun _ => (by decide +kernel : ¬ _ <+: "NoUserErrorType".toList ∧ ¬ _ <+: "NoUserErrorType".toList)⟩

/-- Texts that say which module they come from are their own. -/
example : Own fun e : String => "calc: ".toList ++ e.toList := by
  intro e
  constructor <;> rintro ⟨b, hb⟩ <;> have := congrArg List.head? hb <;> exact absurd this (by simp)

/-- A rejection, with its text. -/
example : ∃ gi prog, Generated .id Sample.lexer gi prog ∧ gi.Disjoint Sample.sem ∧
    C07.ActionsComplete gi.grammar ∧ gi.ProductiveRules Sample.sem ∧ ∃ run,
    prog.parseFallible true Sample.sem id
      (Sample.stream [.unit "Plus", .data "Num" 1, .unit "Plus"] none) 50 0 = .ok run ∧
    ∃ e, run.result = .error e ∧ RuntimeText.display sampleDbg String.toList e =
      "Failed to parse: unexpected Some(Plus)".toList := by
  obtain ⟨gi, prog, h, hr, ht, hi, hp⟩ := Sample.generated
  obtain ⟨run, h1, h2, -⟩ := Sample.run_of hi hp Sample.rejected
  exact ⟨gi, prog, h, Sample.disjoint hr ht, (Sample.firstComplete hr).actions, Sample.productive hr ht, run, h1, _, h2, by decide +kernel⟩

/-- An overlap, with its text. -/
example : ∃ gi prog, Generated .id Sample.lexer gi prog ∧
    ∃ run, prog.parseFallible true Sample.sem1 id (Sample.stream [.data "Num" 1] none) 50 0 = .ok run ∧
      ∃ e, run.result = .error e ∧ RuntimeText.display sampleDbg String.toList e =
        "Token Some(Num(1)) matches multiple rules. Disambiguate matchers for tokens of this type.".toList := by
  obtain ⟨gi, prog, h, -, -, -, ⟨run, h1, h2⟩, -⟩ := Sample.runs_ok (o := .id) (rules := Sample.overlapping)
    (labels := ["S", "A"]) (sem := Sample.sem1) (ts := [.data "Num" 1])
    (r := .error (.overlapping (some (.data "Num" 1)))) (r' := .ok .unit)
    (by unfold EpsilonLast; decide) (by decide +kernel)
  exact ⟨gi, prog, h, run, h1, _, h2, by decide +kernel⟩

end Verif.C73
