import Verif.Model.Parser
import Verif.Spec.Expand

/-!
# Specification: articles without images, and texts that cannot be confused with internal keys
-/

namespace Verif.Spec
open Verif.Model
open scoped List

/-- A letter, a digit, an underscore or a dollar sign. -/
def wordByte (c : Byte) : Bool :=
  (65 ≤ c && c ≤ 90) || (97 ≤ c && c ≤ 122) || (48 ≤ c && c ≤ 57) || c = 0x5F || c = 0x24

/-- The words of a text, i.e. its longest parts that consist of such characters (and empty ones between other characters). -/
def words : Str → List Str
  | [] => [[]]
  | c :: t => if wordByte c then (c :: (words t).headD []) :: (words t).tail else [] :: words t

/-- The word is not part of a marker like `$MARKER_BOLD_OPEN`, and neither has it two dollar signs in a row nor one at its end. -/
structure HarmlessWord (w : Str) : Prop where
  name : ∀ k : Marker, ¬ w <:+: b!"$" ++ k.name
  dollars : ¬ b!"$$" <:+: w
  last : ¬ b!"$" <:+ w

theorem harmlessWord_iff (w : Str) :
    HarmlessWord w ↔ (∀ k ∈ [Marker.boldOpen, .boldClose, .italicOpen, .italicClose, .paragraph], ¬ w <:+: b!"$" ++ k.name) ∧
      ¬ b!"$$" <:+: w ∧ ¬ b!"$" <:+ w :=
  ⟨fun h => ⟨fun k _ => h.name k, h.dollars, h.last⟩, fun h => ⟨fun k => h.1 k (by cases k <;> simp), h.2.1, h.2.2⟩⟩

instance (w : Str) : Decidable (HarmlessWord w) := decidable_of_iff _ (harmlessWord_iff w).symm

/-- The text cannot be confused with internal markers: for one of the characters that they all have, every word with this character
is a harmless one. And so is every word with a dollar sign. -/
def Unmistakable (content : Str) : Prop :=
  ∃ c ∈ b!"MAKER_", ∀ w ∈ words content, c ∈ w ∨ 0x24 ∈ w → HarmlessWord w

instance (content : Str) : Decidable (Unmistakable content) := by unfold Unmistakable; infer_instance

/-- The configuration with no type of image being ignored: with it every image of an article is counted. -/
def withAllImages (env : ParserEnv) : ParserEnv :=
  { env with config := { env.config with list := fun o => if o = .ignoredMediaTypes then [] else env.config.list o } }

end Verif.Spec
