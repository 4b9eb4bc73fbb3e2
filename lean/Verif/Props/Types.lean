import Verif.Spec.RustTypes
import Verif.Props.GrammarPrint
import Verif.Props.Symbols

/-!
# C59: the types of labels, tokens and errors
-/

set_option linter.unusedSectionVars false
set_option autoImplicit false

namespace Verif.C59
open Spec

variable {tx : Text}

/-- A token outside groups that is no part of a symbol of the grammar language: punctuation other than
`; # < > | ! : =`, an equals sign that is not followed by `>`, or a literal that is neither a character nor a word. -/
def Foreign (tx : Text) : TokenStream → Prop
  | .nil => False
  | .group _ _ rest => Foreign tx rest
  | .ident _ rest => Foreign tx rest
  | .literal text rest => (text.toList.head? ≠ some '\'' ∧ ¬ Identifier tx text) ∨ Foreign tx rest
  | .punct ch _ rest => ch ∉ [';', '#', '<', '>', '|', '!', ':', '='] ∨
      (ch = '=' ∧ ∀ j r, rest ≠ .punct '>' j r) ∨ Foreign tx rest

theorem foreign_append_right {a b : TokenStream} (h : Foreign tx b) : Foreign tx (a.append b) := by
  induction a with
  | nil => exact h
  | group d i r _ ih => exact ih
  | ident n r ih => exact ih
  | literal n r ih => exact .inr ih
  | punct c j r ih => exact .inr (.inr ih)

/-- `>` first. -/
def StartsEnd (t : TokenStream) : Prop := ∃ j r, t = .punct '>' j r

theorem foreign_append_left {a b : TokenStream} (h : Foreign tx a) (hb : ¬ StartsEnd b) : Foreign tx (a.append b) := by
  induction a with
  | nil => cases h
  | group d i r _ ih => exact ih h
  | ident n r ih => exact ih h
  | literal n r ih => exact h.imp id ih
  | punct c j r ih =>
    rcases h with h | ⟨rfl, h⟩ | h
    · exact .inl h
    · refine .inr (.inl ⟨rfl, fun j' r' e => ?_⟩)
      cases r with
      | nil => exact hb ⟨j', r', e⟩
      | punct c' j'' r'' => cases e; exact h _ _ rfl
      | group _ _ _ => cases e
      | ident _ _ => cases e
      | literal _ _ => cases e
    · exact .inr (.inr (ih h))

/-- A stream with such a token has no reading. -/
theorem foreign_not_lexes {t : TokenStream} (h : Foreign tx t) : ¬ ∃ ss, Lexes tx t ss := by
  rintro ⟨ss, hl⟩
  induction hl with
  | nil => cases h
  | @cons u rest s ss hs hl ih =>
    refine ih ?_
    cases hs with
    | brace => exact h
    | paren => exact h
    | bracket => exact h
    | ident => exact h
    | char hc =>
      rcases h with ⟨h, -⟩ | h
      · rw [hc] at h; simp at h
      · exact h
    | word hi _ =>
      rcases h with ⟨-, h⟩ | h
      · exact absurd hi h
      · exact h
    | single hs =>
      cases hs <;> rcases h with h | ⟨h, -⟩ | h <;> first | exact h | simp at h
    | colon =>
      rcases h with h | ⟨h, -⟩ | h <;> first | exact h | simp at h
    | arrow =>
      rcases h with h | ⟨-, h⟩ | h
      · simp at h
      · exact absurd rfl (h _ _)
      · rcases h with h | ⟨h, -⟩ | h <;> first | exact h | simp at h
    | scope =>
      rcases h with h | ⟨h, -⟩ | h
      · simp at h
      · simp at h
      · rcases h with h | ⟨h, -⟩ | h <;> first | exact h | simp at h

/-! ### Plain types -/

theorem plain_reads {ty : TokenStream} (h : PlainType tx ty) :
    ∃ ss, Lexes tx ty ss ∧ ss ≠ [] ∧ ∀ s ∈ ss, ¬ Is (.op .arrow) s ∧ ¬ Is (.op .semicolon) s := by
  have hid : ∀ {n : String}, Identifier tx n → Lexes tx (.ident n .nil) [⟨.ident n, .ident n .nil⟩] :=
    fun h => C37.lexes_one (.ident h)
  induction h with
  | name h => exact ⟨_, hid h, by simp, by simp [Is]⟩
  | @path n j ty h _ ih =>
    obtain ⟨ss, h1, -, h2⟩ := ih
    exact ⟨_, .cons (.ident h) (.cons (.scope j) h1), by simp, by simpa [Is] using h2⟩
  | @generic n j j' ty h _ ih =>
    obtain ⟨ss, h1, -, h2⟩ := ih
    refine ⟨_, .cons (.ident h) (.cons (.single (joint := j) .beginProd)
      (C37.lexes_append h1 (C37.lexes_one (.single (joint := j') .endProd)))), by simp, ?_⟩
    intro s hs
    simp only [List.mem_cons, List.mem_append, List.not_mem_nil, or_false] at hs
    rcases hs with rfl | rfl | hs | rfl
    · simp [Is]
    · simp [Is]
    · exact h2 s hs
    · simp [Is]
  | @genericPath n j j' ty ty' h _ _ ih ih' =>
    obtain ⟨ss, h1, -, h2⟩ := ih
    obtain ⟨ss', h1', -, h2'⟩ := ih'
    refine ⟨_, .cons (.ident h) (.cons (.single (joint := j) .beginProd)
      (C37.lexes_append h1 (.cons (.single (joint := true) .endProd) (.cons (.scope j') h1')))), by simp, ?_⟩
    intro s hs
    simp only [List.mem_cons, List.mem_append] at hs
    rcases hs with rfl | rfl | hs | rfl | rfl | hs
    · simp [Is]
    · simp [Is]
    · exact h2 s hs
    · simp [Is]
    · simp [Is]
    · exact h2' s hs
  | @qualified j j' ty trait rest h _ _ _ ih ih' ih'' =>
    obtain ⟨ss, h1, -, h2⟩ := ih
    obtain ⟨ss', h1', -, h2'⟩ := ih'
    obtain ⟨ss'', h1'', -, h2''⟩ := ih''
    refine ⟨_, .cons (.single (joint := j) .beginProd) (C37.lexes_append h1 (.cons (.ident h)
      (C37.lexes_append h1' (.cons (.single (joint := true) .endProd) (.cons (.scope j') h1''))))), by simp, ?_⟩
    intro s hs
    simp only [List.mem_cons, List.mem_append] at hs
    rcases hs with rfl | hs | rfl | hs | rfl | rfl | hs
    · simp [Is]
    · exact h2 s hs
    · simp [Is]
    · exact h2' s hs
    · simp [Is]
    · simp [Is]
    · exact h2'' s hs
  | tuple => exact ⟨_, C37.lexes_one (.paren _), by simp, by simp [Is]⟩
  | array => exact ⟨_, C37.lexes_one (.bracket _), by simp, by simp [Is]⟩
  | @never j => exact ⟨_, C37.lexes_one (.single (joint := j) .bang), by simp, by simp [Is]⟩
  | object _ h _ ih =>
    obtain ⟨ss, h1, -, h2⟩ := ih
    exact ⟨_, .cons (.ident h) h1, by simp, by simpa [Is] using h2⟩
  | function h => exact ⟨_, .cons (.ident h) (C37.lexes_one (.paren _)), by simp, by simp [Is]⟩

/-- Plain types can be written in grammar files. -/
theorem plain_printable {ty : TokenStream} (h : PlainType tx ty) (hj : JointOk ty) : C37.PrintableType tx ty := by
  obtain ⟨ss, h1, h2, h3⟩ := plain_reads h
  refine ⟨hj, ss, h1, ?_⟩
  cases ss with
  | nil => exact absurd rfl h2
  | cons a ss =>
    have := TypeSyntax.mk (a := a) (ss := ss) fun s hs => h3 s (by simp [hs])
    rwa [C36.lexes_tokens h1] at this

/-! ### Other types -/

theorem type_not_end {p : TypePart} {ty : TokenStream} (h : RustType tx p ty) (b : TokenStream) :
    ¬ StartsEnd (ty.append b) := by
  induction h generalizing b with
  | plus _ _ ih _ => rw [TokenStream.append_assoc]; exact ih _
  | more _ _ ih _ => rw [TokenStream.append_assoc]; exact ih _
  | one _ ih => exact ih _
  | _ => rintro ⟨j, r, e⟩; cases e

/-- Digits do not start words. -/
def DigitsApart (tx : Text) : Prop := ∀ c : Char, c.isDigit = true → tx.alphabetic c = false

/-- A type is plain or contains a token that is foreign to the grammar language. -/
theorem plain_or_foreign (hd : DigitsApart tx) {p : TypePart} {ty : TokenStream} (h : RustType tx p ty) :
    PlainType tx ty ∨ ∀ b, Foreign tx (ty.append b) := by
  induction h with
  | name h => exact .inl (.name h)
  | path h _ ih => exact ih.imp (.path h) fun hf b => .inr (.inr (.inr (.inr (hf b))))
  | generic h _ ih =>
    refine ih.imp (.generic h) fun hf b => .inr (.inr ?_)
    rw [TokenStream.append_assoc]
    exact hf _
  | genericPath h _ _ ih ih' =>
    rcases ih with ih | hf
    · rcases ih' with ih' | hf
      · exact .inl (.genericPath h ih ih')
      · refine .inr fun b => .inr (.inr ?_)
        rw [TokenStream.append_assoc]
        exact foreign_append_right (.inr (.inr (.inr (.inr (.inr (.inr (hf b)))))))
    · refine .inr fun b => .inr (.inr ?_)
      rw [TokenStream.append_assoc]
      exact hf _
  | qualified h _ _ _ ih ih' ih'' =>
    rcases ih with ih | hf
    · rcases ih' with ih' | hf
      · rcases ih'' with ih'' | hf
        · exact .inl (.qualified h ih ih' ih'')
        · refine .inr fun b => .inr (.inr ?_)
          rw [TokenStream.append_assoc]
          refine foreign_append_right ?_
          show Foreign tx (TokenStream.append (TokenStream.append _ _) b)
          rw [TokenStream.append_assoc]
          exact foreign_append_right (.inr (.inr (.inr (.inr (.inr (.inr (hf b)))))))
      · refine .inr fun b => .inr (.inr ?_)
        rw [TokenStream.append_assoc]
        refine foreign_append_right ?_
        show Foreign tx (TokenStream.append (TokenStream.append _ _) b)
        rw [TokenStream.append_assoc]
        exact hf _
    · refine .inr fun b => .inr (.inr ?_)
      rw [TokenStream.append_assoc]
      exact hf _
  | tuple => exact .inl .tuple
  | array => exact .inl .array
  | never => exact .inl .never
  | reference => exact .inr fun b => .inl (by decide)
  | lifetime => exact .inr fun b => .inl (by decide)
  | pointer => exact .inr fun b => .inl (by decide)
  | object hn h _ ih => exact ih.imp (.object hn h) fun hf b => hf b
  | plus =>
    refine .inr fun b => ?_
    rw [TokenStream.append_assoc]
    exact foreign_append_right (.inl (by decide))
  | function h => exact .inl (.function h)
  | functionTo => exact .inr fun b => .inl (by decide)
  | one _ ih => exact ih
  | assoc _ hty => exact .inr fun b => .inr (.inl ⟨rfl, fun j r e => type_not_end hty b ⟨j, r, e⟩⟩)
  | number hn =>
    obtain ⟨c, rest, hc, hdig⟩ := hn
    refine .inr fun b => .inl ⟨?_, ?_⟩
    · rw [hc]
      rintro e
      simp only [List.head?_cons, Option.some.injEq] at e
      subst e
      exact absurd hdig (by decide)
    · rintro ⟨⟨c', r', hc', h⟩, -⟩
      rw [hc] at hc'
      cases hc'
      rcases h with h | rfl
      · rw [hd c hdig] at h; cases h
      · exact absurd hdig (by decide)
  | more =>
    refine .inr fun b => ?_
    rw [TokenStream.append_assoc]
    exact foreign_append_right (.inl (by decide))

theorem plain_not_foreign {ty : TokenStream} (h : PlainType tx ty) : ¬ Foreign tx ty := fun hf =>
  foreign_not_lexes hf (let ⟨ss, h, _⟩ := plain_reads h; ⟨ss, h⟩)

/-- A stream with foreign tokens outside groups is never accepted as a grammar: the macro reports an error. -/
theorem foreign_rejected {t : TokenStream} (hj : JointOk t) (h : Foreign tx t) (fuel : Nat) :
    ∃ e, parseGrammar tx fuel (tokenize tx .empty t) = .err e :=
  C37.rejects hj fuel fun ⟨ss, _, hl, _⟩ => foreign_not_lexes h ⟨ss, hl⟩

/-- **C59.** A file in which a type that is not plain stands anywhere outside groups is rejected with an error: types
with two generic arguments, references, lifetimes, pointers, `+`, `->`, `Item = T` and numeric arguments cannot be used
for labels, tokens and errors. -/
theorem type_rejected (hd : DigitsApart tx) {t a ty b : TokenStream} (hj : JointOk t)
    (ht : t = a.append (ty.append b)) (hr : RustType tx .type ty) (hp : ¬ PlainType tx ty) (fuel : Nat) :
    ∃ e, parseGrammar tx fuel (tokenize tx .empty t) = .err e := by
  subst ht
  exact foreign_rejected hj (foreign_append_right (((plain_or_foreign hd hr).resolve_left hp) b)) fuel

/-! ### Changing the types of a file -/

/-- Two files that differ in their types only. -/
structure Retyped (f f' : GrammarFile) : Prop where
  name : f'.name = f.name
  terminal : (∃ a b, f.terminal = .raw a ∧ f'.terminal = .raw b) ∨ ∃ a b, f.terminal = .enum a ∧ f'.terminal = .enum b
  declarations : List.Forall₂ (fun d d' : Declaration => d'.label = d.label ∧ d'.alternatives = d.alternatives)
    f.declarations f'.declarations

/-- The types of a file. -/
inductive HasType (f : GrammarFile) (ty : TokenStream) : Prop
  | terminal : f.terminal = .raw ty ∨ f.terminal = .enum ty → HasType f ty
  | error : f.error = some ty → HasType f ty
  | label {d : Declaration} : d ∈ f.declarations → d.type = some ty → HasType f ty

theorem Retyped.grammar_eq {f f' : GrammarFile} (h : Retyped f f') : f'.grammar = f.grammar := by
  have : ∀ {ds ds' : List Declaration},
      List.Forall₂ (fun d d' : Declaration => d'.label = d.label ∧ d'.alternatives = d.alternatives) ds ds' →
      (ds'.flatMap Declaration.rules).map ARule.toLr = (ds.flatMap Declaration.rules).map ARule.toLr := by
    intro ds ds' h
    induction h with
    | nil => rfl
    | cons h _ ih =>
      simp only [List.flatMap_cons, List.map_append, ih, Declaration.rules, List.map_map]
      rw [h.1, h.2]
      rfl
  simp only [GrammarFile.grammar, GrammarFile.rules, this h.declarations]

theorem Retyped.declaration {f f' : GrammarFile} (h : Retyped f f') {d' : Declaration} (hd : d' ∈ f'.declarations) :
    ∃ d ∈ f.declarations, d'.label = d.label ∧ d'.alternatives = d.alternatives := by
  obtain ⟨-, -, h⟩ := h
  revert hd
  generalize f'.declarations = ds' at h
  generalize f.declarations = ds at h
  induction h with
  | nil => simp
  | cons h _ ih =>
    intro hd
    rcases List.mem_cons.mp hd with rfl | hd
    · exact ⟨_, by simp, h⟩
    · obtain ⟨d, h1, h2⟩ := ih hd
      exact ⟨d, by simp [h1], h2⟩

variable {unprint : String → TokenStream}

theorem Retyped.printable {f f' : GrammarFile} (h : Retyped f f') (hp : C37.PrintableFile tx unprint f)
    (ht : ∀ ty, HasType f' ty → C37.PrintableType tx ty) : C37.PrintableFile tx unprint f' where
  keywords := hp.keywords
  name := h.name ▸ hp.name
  terminal ty e := ht ty (.terminal e)
  error ty e := ht ty (.error e)
  declarations d' hd' := by
    obtain ⟨d, hd, h1, h2⟩ := h.declaration hd'
    have := hp.declarations d hd
    exact ⟨h1 ▸ this.label, fun ty e => ht ty (.label hd' e), h2 ▸ this.rules, h2 ▸ this.nonempty⟩

/-- The types of a file can be replaced by any plain types: the file is accepted as before, with the same grammar and the
same table. Missing in the full statement: all other types, see `type_rejected`. -/
theorem types_replaced_partial {f f' : GrammarFile} (hp : C37.PrintableFile tx unprint f) {fuel : Nat} {gi : GrammarInfo}
    (hg : parseGrammar tx fuel (tokenize tx .empty (C37.fileTokens unprint f)) = .ok gi) (h : Retyped f f')
    (ht : ∀ ty, HasType f' ty → JointOk ty ∧ PlainType tx ty) (hc : ConsistentTypes tx f'.declarations) :
    ∃ gi', parseGrammar tx fuel (tokenize tx .empty (C37.fileTokens unprint f')) = .ok gi' ∧ C37.Reads gi' f' ∧
      gi'.indexedGrammar = gi.indexedGrammar ∧ gi'.lrTable = gi.lrTable := by
  obtain ⟨hj, -⟩ := C37.file_print hp
  obtain ⟨-, f₀, -, -, -, hr₀, hi, hl⟩ := C37.accepted_is_file hj hg
  have hr := (C37.round_trip hp fuel).1 gi hg
  obtain ⟨-, ss, h1, h2⟩ := C37.file_print
    (h.printable hp fun ty hty => plain_printable (ht ty hty).2 (ht ty hty).1)
  rw [hr.grammar_eq, ← h.grammar_eq] at hi
  exact C37.file_is_accepted h1 h2 hc hi hl

theorem foreign_cat {l : List TokenStream} {x : TokenStream} (hx : x ∈ l) (h : ∀ b, Foreign tx (x.append b))
    (b : TokenStream) : Foreign tx ((C37.cat l).append b) := by
  induction l with
  | nil => simp at hx
  | cons y l ih =>
    rw [C37.cat, TokenStream.append_assoc]
    rcases List.mem_cons.mp hx with rfl | hx
    · exact h _
    · exact foreign_append_right (ih hx)

theorem foreign_file {f : GrammarFile} {ty : TokenStream} (hty : HasType f ty) (h : ∀ b, Foreign tx (ty.append b)) :
    Foreign tx (C37.fileTokens unprint f) := by
  have : ∀ b, Foreign tx ((C37.fileTokens unprint f).append b) := by
    cases hty with
    | terminal e =>
      refine foreign_cat (.tail _ (.tail _ (.tail _ (.tail _ (.head _))))) ?_
      rcases e with e | e <;> rw [e] <;> exact foreign_cat (x := ty) (by simp) h
    | error e =>
      refine foreign_cat (.tail _ (.tail _ (.tail _ (.tail _ (.tail _ (.head _)))))) ?_
      rw [e]
      exact foreign_cat (x := ty) (by simp) h
    | @label d hd e =>
      refine foreign_cat (.tail _ (.tail _ (.tail _ (.tail _ (.tail _ (.tail _ (.head _))))))) ?_
      refine foreign_cat (List.mem_map_of_mem hd) ?_
      refine foreign_cat (.tail _ (.tail _ (.tail _ (.head _)))) ?_
      rw [e]
      intro b
      rw [TokenStream.append_assoc]
      exact foreign_append_right (h b)
  simpa [TokenStream.append_nil] using this .nil

theorem file_joint {f f' : GrammarFile} (hp : C37.PrintableFile tx unprint f) (h : Retyped f f')
    (ht : ∀ ty, HasType f' ty → JointOk ty) : JointOk (C37.fileTokens unprint f') := by
  have opt : ∀ k ty, JointOk ty → JointOk (C37.typeOptionTokens k ty) := fun k ty hty =>
    C37.joint_cat (by simp [C37.op_joint, JointOk, hty])
  refine C37.joint_cat ?_
  simp only [List.mem_cons, List.not_mem_nil, or_false]
  rintro t (rfl | rfl | rfl | rfl | rfl | rfl | rfl)
  · trivial
  · exact C37.op_joint _
  · trivial
  · exact C37.op_joint _
  · split
    · rename_i ty e; exact opt _ _ (ht _ (.terminal (.inl e)))
    · rename_i ty e; exact opt _ _ (ht _ (.terminal (.inr e)))
  · split
    · trivial
    · rename_i ty e; exact opt _ _ (ht _ (.error e))
  · refine C37.joint_cat ?_
    intro t hmem
    obtain ⟨d', hd', rfl⟩ := List.mem_map.mp hmem
    obtain ⟨d, hd, h1, h2⟩ := h.declaration hd'
    have hd := hp.declarations d hd
    have hr := (C37.rules_print (h2 ▸ hd.rules) (h2 ▸ hd.nonempty)).1
    refine C37.joint_cat ?_
    simp only [List.mem_cons, List.not_mem_nil, or_false]
    rintro t (rfl | rfl | rfl | rfl | rfl | rfl | rfl)
    · exact C37.op_joint _
    · trivial
    · exact C37.op_joint _
    · split
      · trivial
      · rename_i ty e; exact C37.joint_append (C37.op_joint _) (ht _ (.label hd' e))
    · exact C37.op_joint _
    · exact hr
    · exact C37.op_joint _

/-- Among Rust types, the plain ones are exactly those that can replace the types of an accepted file. -/
theorem accepts_exactly_plain (hd : DigitsApart tx) {f f' : GrammarFile} (hp : C37.PrintableFile tx unprint f)
    {fuel : Nat} {gi : GrammarInfo}
    (hg : parseGrammar tx fuel (tokenize tx .empty (C37.fileTokens unprint f)) = .ok gi) (h : Retyped f f')
    (ht : ∀ ty, HasType f' ty → JointOk ty ∧ RustType tx .type ty) (hc : ConsistentTypes tx f'.declarations) :
    (∃ gi', parseGrammar tx fuel (tokenize tx .empty (C37.fileTokens unprint f')) = .ok gi') ↔
      ∀ ty, HasType f' ty → PlainType tx ty := by
  constructor
  · rintro ⟨gi', hg'⟩ ty hty
    by_contra hn
    obtain ⟨e, he⟩ := foreign_rejected (file_joint hp h fun ty hty => (ht ty hty).1)
      (foreign_file hty ((plain_or_foreign hd (ht ty hty).2).resolve_left hn)) fuel
    rw [he] at hg'
    cases hg'
  · intro hpl
    obtain ⟨gi', h1, -⟩ := types_replaced_partial hp hg h (fun ty hty => ⟨(ht ty hty).1, hpl ty hty⟩) hc
    exact ⟨gi', h1⟩

end Verif.C59
