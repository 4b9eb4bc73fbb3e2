import Verif.Model.Grammar

/-!
# Model of `lr_table/src/vocabulary.rs`

`TokenId` is `Nat`. A `HashMap<T, TokenId>` is an association list.
-/

namespace Verif

/-- vocabulary.rs:24 `AugmentedTokenId`. -/
abbrev AugTokId := AugTok Nat

/-- vocabulary.rs:42-60 `impl Label for AugmentedVocabToken<TokenId>`. -/
instance : Label AugTokId where
  id
    | .token t => t + 2
    | .epsilon => 0
    | .eos => 1
  fromId ordinal :=
    if ordinal = 0 then pure .epsilon
    else if ordinal = 1 then pure .eos
    else pure (.token (ordinal - 2))

/-- vocabulary.rs:51-59 `AugmentedVocabToken::from_id` as a plain function (it cannot panic). -/
def AugTok.ofId (ordinal : Nat) : AugTokId :=
  if ordinal = 0 then .epsilon
  else if ordinal = 1 then .eos
  else .token (ordinal - 2)

/-- vocabulary.rs:88-91 `VocabularyBuilder<T>` and :136-139 `AugmentedVocab<T>` (same fields;
`VocabularyBuilder::build`, :122-127, moves them over). -/
structure Vocab (T : Type) where
  tokenMap : List (T × Nat)
  idMap : List T
deriving DecidableEq, Repr

namespace Vocab
variable {ε T : Type} [DecidableEq T]

/-- vocabulary.rs:115-120 `VocabularyBuilder::new`. -/
def new : Vocab T := ⟨[], []⟩

/-- vocabulary.rs:94-111 `VocabularyBuilder::get_id_or_insert`. -/
def getIdOrInsert (v : Vocab T) (token : AugTok T) : Vocab T × AugTokId :=
  match token with
  | .token t =>
    let nextId := v.tokenMap.length
    match v.tokenMap.lookup t with
    | some id => (v, .token id)
    | none => (⟨v.tokenMap ++ [(t, nextId)], v.idMap ++ [t]⟩, .token nextId)
  | .epsilon => (v, .epsilon)
  | .eos => (v, .eos)

/-- vocabulary.rs:142-144 `AugmentedVocab::size`. -/
def size (v : Vocab T) : Nat := v.idMap.length + 2

/-- vocabulary.rs:146-148 `AugmentedVocab::for_each_id`. -/
def forEachId (v : Vocab T) : List AugTokId := (List.range v.size).map AugTok.ofId

/-- vocabulary.rs:150-159 `AugmentedVocab::id_to_token`. -/
def idToToken (v : Vocab T) (id : AugTokId) : Outcome ε (AugTok T) :=
  match id with
  | .token i => do
    let t ← Outcome.index v.idMap i
    pure (.token t)
  | .epsilon => pure .epsilon
  | .eos => pure .eos

/-- vocabulary.rs:163-171 `token_to_id`; `none` is `Err(UnrecognizedToken)`. -/
def tokenToId (v : Vocab T) (t : T) : Option Nat := v.tokenMap.lookup t

/-- vocabulary.rs:173-182 `augmented_token_to_id`; `none` is `Err(UnrecognizedToken)`. -/
def augTokenToId (v : Vocab T) (t : AugTok T) : Option AugTokId :=
  match t with
  | .token t => (v.tokenToId t).map .token
  | .epsilon => some .epsilon
  | .eos => some .eos

end Vocab

/-- vocabulary.rs:185-188 `VocabSet { set: BitSet }`. -/
structure VocabSet where
  set : BitSet
deriving DecidableEq, Repr

namespace VocabSet
variable {ε T : Type}

/-- vocabulary.rs:191-195 `VocabSet::new` for a vocabulary of the given size. -/
def new (vocabSize : Nat) : VocabSet := ⟨BitSet.new vocabSize⟩

/-- vocabulary.rs:197-199 `VocabSet::has`. -/
def has (s : VocabSet) (t : AugTokId) : Outcome ε Bool := s.set.has (Label.id t)

/-- vocabulary.rs:201-203 `VocabSet::set`. -/
def insert (s : VocabSet) (t : AugTokId) : Outcome ε VocabSet := do
  let b ← s.set.set (Label.id t)
  pure ⟨b⟩

/-- vocabulary.rs:205-207 `VocabSet::clear`. -/
def clear (s : VocabSet) (t : AugTokId) : Outcome ε VocabSet := do
  let b ← s.set.clear (Label.id t)
  pure ⟨b⟩

/-- vocabulary.rs:211-213 `VocabSet::merge`. -/
def merge (s other : VocabSet) : VocabSet × Bool :=
  let (b, modified) := s.set.merge other.set
  (⟨b⟩, modified)

/-- vocabulary.rs:215-217 `VocabSet::iter`. -/
def iter (s : VocabSet) : List AugTokId := s.set.forEach.map AugTok.ofId

end VocabSet
end Verif
