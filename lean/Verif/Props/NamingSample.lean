import Verif.Props.Naming
import Verif.Props.GrammarSample
import Mathlib.Logic.Equiv.Basic

/-!
# C60 in concrete cases
-/

set_option autoImplicit false

namespace Verif.C60
open Spec C37

section
variable {tx : Text} {unprint : String → TokenStream} {τ : String → String}

/-- A file that can be written can be written with other names. -/
theorem printable_rename (hid : ∀ s, Identifier tx s → Identifier tx (τ s)) {f : GrammarFile}
    (h : PrintableFile tx unprint f) : PrintableFile tx unprint (renameFile τ f) where
  keywords := h.keywords
  name := h.name
  terminal := h.terminal
  error := h.error
  declarations := by
    intro d hd
    obtain ⟨d, hm, rfl⟩ := List.mem_map.mp hd
    have hd := h.declarations d hm
    refine ⟨hid _ hd.label, hd.type, fun a ha => ?_, fun e => hd.nonempty (List.map_eq_nil_iff.mp e)⟩
    obtain ⟨a, hm, rfl⟩ := List.mem_map.mp ha
    have ha := hd.rules a hm
    refine ⟨fun n hn => ?_, fun e => ha.nonempty (List.map_eq_nil_iff.mp e), ?_, fun d inner e => ?_⟩
    · obtain ⟨n, hm, rfl⟩ := List.mem_map.mp hn
      have := ha.nodes n hm
      cases n with
      | production l => exact hid l this
      | symbol s => exact this
      | epsilon => exact this
    · intro he
      obtain ⟨n, hn, e⟩ := List.mem_map.mp he
      cases n <;> cases e
      have := ha.alone hn
      simp only [renameAlternative, this]
      rfl
    · simp only [renameAlternative, Option.map_eq_some_iff] at e
      obtain ⟨⟨d', i'⟩, e, e'⟩ := e
      cases e'
      exact ha.block _ _ e

/-- **C60.** The same, for files as they are written: the tokens of a file with other names for the labels are turned
into the same code. -/
theorem written_names (hτ : Function.Injective τ) (hid : ∀ s, Identifier tx s → Identifier tx (τ s)) {f : GrammarFile}
    (h : PrintableFile tx unprint f) (o : HashOrder) (lex : Lexer) (fuel : Nat) (prog : Program) :
    ((∃ gi, buildGrammar o lex tx fuel (fileTokens unprint f) = .ok (gi, prog)) ↔
      ∃ gi', buildGrammar o lex tx fuel (fileTokens unprint (renameFile τ f)) = .ok (gi', prog)) ∧
    ∀ gi gi', buildGrammar o lex tx fuel (fileTokens unprint f) = .ok (gi, prog) →
      buildGrammar o lex tx fuel (fileTokens unprint (renameFile τ f)) = .ok (gi', prog) →
      ∀ retok isPub, Emit.parser gi' retok isPub prog = Emit.parser gi retok isPub prog := by
  obtain ⟨hj, ss, hl, hf⟩ := file_print h
  obtain ⟨hj', ss', hl', hf'⟩ := file_print (printable_rename hid h)
  exact macro_names hτ hj hj' hl hf hl' hf' o lex fuel prog

end

/-! ### The sample file with `L` renamed to `List` -/

/-- `List` for `L`. -/
def better : String → String := Equiv.swap "L" "List"

theorem better_injective : Function.Injective better := (Equiv.swap "L" "List").injective

theorem better_identifier (s : String) (h : Identifier GrammarSample.tx s) : Identifier GrammarSample.tx (better s) := by
  unfold better
  rw [Equiv.swap_apply_def]
  split
  · exact GrammarSample.ident_of (by decide +kernel)
  · split
    · exact GrammarSample.ident_of (by decide +kernel)
    · exact h

/-- The labels and the constructors are changed. -/
example : (renameFile better GrammarSample.file).declarations =
    [⟨"S", some (.ident "u64" .nil),
      [([.production "O", .production "List"], some (.brace, .punct '#' false (.ident "List" .nil)))]⟩,
     ⟨"O", none, [([.epsilon], none)]⟩,
     ⟨"List", some (.ident "u64" .nil),
      [([.symbol ⟨"Num", .wildcard⟩], some (.brace, .punct '#' false (.literal "0" .nil))),
       ([.production "List", .symbol ⟨"Plus", .none⟩, .symbol ⟨"Num", .pattern "x "⟩],
        some (.brace, .punct '#' false (.ident "List" .nil)))]⟩] := by
  have h1 : better "S" = "S" := by decide +kernel
  have h2 : better "O" = "O" := by decide +kernel
  have h3 : better "L" = "List" := by decide +kernel
  simp [renameFile, GrammarSample.file, renameDeclaration, renameAlternative, renameANode, renameBody, h1, h2, h3]

/-- The hypotheses of `macro_names` and `written_names` are met, and the sample is accepted. -/
example : ∃ gi gi' prog, buildGrammar .id GrammarSample.lexer GrammarSample.tx 1000 GrammarSample.tokens = .ok (gi, prog) ∧
    buildGrammar .id GrammarSample.lexer GrammarSample.tx 1000
      (fileTokens GrammarSample.unprint (renameFile better GrammarSample.file)) = .ok (gi', prog) ∧
    ∀ retok isPub, Emit.parser gi' retok isPub prog = Emit.parser gi retok isPub prog := by
  have h := written_names better_injective better_identifier GrammarSample.printable .id GrammarSample.lexer 1000
  have hk : (match buildGrammar .id GrammarSample.lexer GrammarSample.tx 1000 GrammarSample.tokens with
      | .ok _ => true | _ => false) = true := by decide +kernel
  cases hb : buildGrammar .id GrammarSample.lexer GrammarSample.tx 1000 GrammarSample.tokens with
  | ok x =>
    obtain ⟨gi', h'⟩ := (h x.2).1.mp ⟨x.1, hb⟩
    exact ⟨x.1, gi', x.2, rfl, h', (h x.2).2 x.1 gi' hb h'⟩
  | _ => rw [hb] at hk; cases hk

/-! ### The library -/

/-- Sums, with letters. -/
def sums : Grammar Char String :=
  ⟨[⟨"S", [.production "E"]⟩, ⟨"E", [.production "E", .terminal (.token '+'), .terminal (.token 'n')]⟩,
    ⟨"E", [.terminal (.token 'n')]⟩]⟩

/-- Numbers for the letters. -/
def code (c : Char) : Nat := if c = '+' then 1 else if c = 'n' then 2 else c.toNat + 10

/-- The hypotheses of `library_names` and `parse_names` are met by `sums`, with numbers for tokens and labels. -/
example : (∃ p, SimParser.new 100 sums = .ok p) ∧
    Set.InjOn code {t | TokenOf sums t ∨ t ∈ ['n', '+', 'n', 'x']} ∧
    Set.InjOn String.length {l | LabelOf (renameGrammar id (fun l => if l = "E" then "Expr" else l) sums) l} := by
  refine ⟨?_, ?_, ?_⟩
  · have : (match SimParser.new 100 sums with | .ok _ => true | _ => false) = true := by decide +kernel
    revert this
    cases SimParser.new 100 sums <;> simp
  · have h : ∀ t, (TokenOf sums t ∨ t ∈ ['n', '+', 'n', 'x']) → t ∈ ['n', '+', 'x'] := by
      rintro t (⟨r, hr, ht⟩ | h)
      · simp only [sums, List.mem_cons, List.not_mem_nil, or_false] at hr
        rcases hr with rfl | rfl | rfl <;> simp at ht <;> aesop
      · simp only [List.mem_cons, List.not_mem_nil, or_false] at h ⊢; aesop
    intro a ha b hb
    have hd : ∀ a ∈ ['n', '+', 'x'], ∀ b ∈ ['n', '+', 'x'], code a = code b → a = b := by decide
    exact hd a (h a ha) b (h b hb)
  · have h : ∀ l, LabelOf (renameGrammar id (fun l => if l = "E" then "Expr" else l) sums) l → l ∈ ["S", "Expr"] := by
      rintro l ⟨r, hr, hl⟩
      simp [sums, renameGrammar, renameRule, renameNode] at hr
      rcases hr with rfl | rfl | rfl <;> simp [renameTok] at hl <;> aesop
    intro a ha b hb
    have hd : ∀ a ∈ ["S", "Expr"], ∀ b ∈ ["S", "Expr"], a.length = b.length → a = b := by decide +kernel
    exact hd a (h a ha) b (h b hb)

/-- Names that are merged do matter: `S -> A`, `A -> n`, `A -> +` is accepted, but not with one name for both tokens. -/
example :
    (match SimParser.new 100 (⟨[⟨"S", [.production "A"]⟩, ⟨"A", [.terminal (.token 'n')]⟩,
        ⟨"A", [.terminal (.token '+')]⟩]⟩ : Grammar Char String) with | .ok _ => true | _ => false) = true ∧
    (match SimParser.new 100 (renameGrammar (fun _ => 'n') id (⟨[⟨"S", [.production "A"]⟩,
        ⟨"A", [.terminal (.token 'n')]⟩, ⟨"A", [.terminal (.token '+')]⟩]⟩ : Grammar Char String)) with
      | .err (.reduceConflict ..) => true | _ => false) = true := by
  decide +kernel

end Verif.C60
