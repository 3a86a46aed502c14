import Verif.Model.Files

/-!
# What the commands are supposed to do to the disk
-/

namespace Turms.Spec
open Turms

/-- an operating system on which nothing fails -/
structure Works (os : Os) : Prop where
  mkdir : ∀ fs p, (os.makedirs fs p).1 = none
  open_ : ∀ fs p, os.openFails fs p = none
  write : ∀ fs p s, os.writeFails fs p s = none

/-- the text a possibly failing printer produced; nothing if it failed -/
def printed : Except Err String → String
  | .ok t => t
  | .error _ => ""

/-- the files a project wants written, and with what, in order -/
def wanted (os : Os) (p : Project) (g : Generated) : List (String × String) :=
  [(os.locate (pathJoin p.outDir p.generatedName), g.code)] ++
  (if p.dumpSchema then [(os.locate (pathJoin p.outDir p.schemaName), printed g.schemaText)] else []) ++
  (if p.dumpConfiguration then [(os.locate (pathJoin p.outDir p.configurationName), printed g.configText)] else [])

/-- the dumps a project asks for can be printed -/
def Printable (p : Project) (g : Generated) : Prop :=
  (p.dumpSchema = true → ∃ t, g.schemaText = .ok t) ∧ (p.dumpConfiguration = true → ∃ t, g.configText = .ok t)

/-- the content of `f` after these writes, of which the last one counts; `old` if there is none -/
def contentAfter : List (String × String) → Option String → String → Option String
  | [], old, _ => old
  | (f, t) :: ws, old, x => contentAfter ws (if f = x then some t else old) x

/-- the projects act one after the other, each in this way -/
inductive InOrder (R : Project → FS → FS → Prop) : List Project → FS → FS → Prop
  | nil (fs : FS) : InOrder R [] fs fs
  | cons {p : Project} {ps : List Project} {fs fs1 fs2 : FS} : R p fs fs1 → InOrder R ps fs1 fs2 → InOrder R (p :: ps) fs fs2

/-- what one project must do: nothing if its generation fails, otherwise write exactly what it wants written -/
structure ProjectEffect (os : Os) (gen : Generator) (p : Project) (before after : FS) : Prop where
  failed : ∀ e, gen p before = .error e → after = before
  succeeded : ∀ g, gen p before = .ok g → Printable p g →
    ∀ f, after.files f = contentAfter (wanted os p g) (before.files f) f
  others : ∀ g, gen p before = .ok g → ∀ f, f ∉ (wanted os p g).map (·.1) → after.files f = before.files f

/-- `pre` is a part, from the beginning, of `t` -/
def StartOf (pre t : String) : Prop := pre.toList <+: t.toList

/-- every file is as in `before`, or holds the beginning of a text that was to be written to it -/
def Touched (w : String → String → Prop) (before s : FS) : Prop :=
  ∀ f, s.files f = before.files f ∨ ∃ t pre, w f t ∧ StartOf pre t ∧ s.files f = some pre

/-- the disk went from `d` to `d'` through states that all satisfy `P` -/
def Through (P : FS → Prop) (d d' : Disk) : Prop := ∃ new, d'.states = new ++ d.states ∧ ∀ s ∈ new, P s

end Turms.Spec
