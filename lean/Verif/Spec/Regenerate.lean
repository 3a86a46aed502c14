import Verif.Spec.Merge
import Verif.Model.Tools
import Verif.Model.Pipeline

/-! # A file that is generated again and again, and edited in between -/

namespace Turms.Merge.Spec
open Turms Turms.Merge

/-- something a user wrote into the file -/
inductive Item where
  /-- a statement of the module -/
  | statement (s : Node)
  /-- the body of a function -/
  | function (name : String) (body : List Node)
  /-- a statement of a class -/
  | member (cls : String) (s : Node)
  /-- the body of a method -/
  | method (cls name : String) (body : List Node)
  /-- the comments at an attribute -/
  | comment (cls name trivia : String)

/-- the file has it -/
def Has (f : Module) : Item → Prop
  | .statement s => s ∈ f.body
  | .function n b => ∃ h, Node.fn n h b ∈ f.body
  | .member c s => ∃ h ms, Node.cls c h ms ∈ f.body ∧ s ∈ ms
  | .method c n b => ∃ h ms, Node.cls c h ms ∈ f.body ∧ ∃ h', Node.fn n h' b ∈ ms
  | .comment c n t => ∃ h ms, Node.cls c h ms ∈ f.body ∧ ∃ s, Node.line t s ∈ ms ∧ annotatedName s = some n

/-- generated code of the same name does not exist: asked for only if the item is to stay as a whole -/
def NotGenerated (g : Module) : Item → Prop
  | .statement s => ∀ n, topName s = some n → ∀ x ∈ g.body, topName x ≠ some n
  | .member c s => ∀ n, memberName s = some n → ∀ h ms, Node.cls c h ms ∈ g.body → ∀ x ∈ ms, memberName x ≠ some n
  | _ => True

/-- What happens to the file: turms runs and merges what it generates (possibly from another schema each time), or the user
edits the file and leaves the item alone. -/
inductive History (it : Item) : Module → Module → Prop
  | start (f : Module) : History it f f
  | run {f f' f'' g : Module} : History it f f' → SameKinds f'.body g.body → NotGenerated g it →
      mergeModules f' g = .ok f'' → History it f f''
  | edit {f f' f'' : Module} : History it f f' → (Has f' it → Has f'' it) → History it f f''

/-- the content of the output file after `n` runs that generate the same text, `none` if there is no file -/
def again (processors : List (Pass String (Option String))) (gen : String) : Nat → Option String → Except Err (Option String)
  | 0, file => .ok file
  | n + 1, file =>
    match runPasses processors gen file with
    | (.ok text, _) => again processors gen n (some text)
    | (.error e, _) => .error e

/-- the processor as a pass: it does not write the file -/
def mergePass (parse : String → Except Err Module) (code : Module → String) : Pass String (Option String) where
  className := "MergeProcessor"
  run gen file := (Merge.run parse code (fun a _ => a) (fun _ => file) "" "" gen, file)

/-- the processor as a pass -/
def disclaimerPass (disclaimer : String) : Pass String (Option String) where
  className := "DisclaimerProcessor"
  run gen file := (.ok (disclaimerRun disclaimer gen), file)

end Turms.Merge.Spec
