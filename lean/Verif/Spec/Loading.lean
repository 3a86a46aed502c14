import Verif.Model.Loading
import Mathlib.Data.List.Forall2

/-!
# What loading a schema, a configuration or a class is supposed to do
-/

namespace Turms.Spec
open Turms

/-- these texts are the contents of these files -/
def Contents {S I : Type} (w : World S I) (files texts : List String) : Prop :=
  List.Forall₂ (fun f t => w.readText f = .ok t) files texts

/-- the schema text a source denotes: what the URL serves; the matching files in sorted order, one after the
other; what the URLs of a mapping serve, separated by spaces -/
inductive SdlOf {S I : Type} (w : World S I) : SchemaField → String → Prop
  | url {u t : String} : isUrl u = true → w.fetch u [] = .ok t → SdlOf w (.str u) t
  | glob {g : String} {files texts : List String} : isUrl g = false → files.Perm (w.glob g) →
      files.Pairwise (fun a b => strLe a b = true) → files ≠ [] → Contents w files texts →
      SdlOf w (.str g) (String.join texts)
  | mapping {m : Dict (Dict String)} {texts : List String} :
      List.Forall₂ (fun (uh : String × Dict String) t => w.fetch uh.1 uh.2 = .ok t) m texts →
      SdlOf w (.map m) (joinSpace texts)

/-- the introspection result a source denotes: of the URL, of the only URL of a mapping, of the only matching file -/
inductive IntrospectionOf {S I : Type} (w : World S I) : SchemaField → I → Prop
  | url {u : String} {i : I} : isUrl u = true → w.introspect u [] = .ok i → IntrospectionOf w (.str u) i
  | glob {g f : String} {i : I} : isUrl g = false → w.glob g = [f] → w.readIntrospection f = .ok i →
      IntrospectionOf w (.str g) i
  | mapping {u : String} {h : Dict String} {i : I} : w.introspect u h = .ok i → IntrospectionOf w (.map [(u, h)]) i

/-- schemas from strings are trusted, schemas from mappings are validated -/
def builderFor {S I : Type} (w : World S I) : SchemaField → String → Except Err S
  | .str _ => w.buildAssumeValid
  | .map _ => w.build

/-- what follows the last dot of the name (the whole name if it has none) is an extension that can be loaded, in
any capitalisation -/
def SupportedFile (name : String) : Prop :=
  ∃ ext : String, (name = ext ∨ ∃ stem, name = stem ++ "." ++ ext) ∧ lowerAscii ext ∈ ["yaml", "yml", "toml", "json"]

end Turms.Spec
