import Verif.Lemmas.DistinctNames
import Verif.Props.ResponseScope

/-! # C57: distinct selection paths get distinct classes -/

namespace Turms.Props
open Turms Spec

/-- C57: the classes generated for an operation, its own included, have pairwise different names — if its nested selections have
different paths up to case, keys begin with a letter and no key directly below an interface begins with `base`.
Missing: the other cases, in which names do collide (counterexamples). -/
theorem C57_distinct_classes_partial (prep : List Char → List Char) (c : Ctx) (p : OperationsConfig) (o : OpDef)
    (r r' : Reg) (ss : List Stmt) (root : String) (hroot : c.schema.root o.kind = some root)
    (hschema : c.schema.types.keys.Nodup) (hempty : "" ∉ c.schema.types.keys)
    (h : generateOperation prep c p o r = .ok (ss, r')) (hclear : ClearPaths c.schema (nestedOf c.schema root o)) :
    (boundL ss).Nodup := by
  obtain ⟨name, cls, root', nested, bases, body, _, _, hr, rfl, hn⟩ := generateOperation_names h
  rw [hroot] at hr
  cases hr
  rw [boundL_append]
  exact (names_nodup hschema hempty hclear (nestedSels_path _ _) cls).sublist (List.Sublist.append hn (List.Sublist.refl _))

/-- the class names of an operation -/
def operationNames (c : Ctx) (o : OpDef) : Option (List String) :=
  (generateOperation id c {} o (Reg.init {})).toOption.map fun x => boundL x.1

/-- a schema with interfaces, nested objects and a union -/
def treeSchema : Schema := { query := some "Query", types := [
  ("String", ⟨.scalar, none⟩),
  ("Node", ⟨.interface [plainField "id" (.nonNull (.named "String")), plainField "base" (.named "User")] [], none⟩),
  ("User", ⟨.object [plainField "id" (.nonNull (.named "String")), plainField "name" (.named "String"), plainField "base" (.named "User"),
    plainField "friend" (.named "User"), plainField "node" (.named "Node"), plainField "_next" (.named "User")] ["Node"], none⟩),
  ("Post", ⟨.object [plainField "id" (.nonNull (.named "String")), plainField "title" (.named "String"), plainField "base" (.named "User"),
    plainField "friend" (.named "Post")] ["Node"], none⟩),
  ("Found", ⟨.union ["User", "Post"], none⟩),
  ("Query", ⟨.object [plainField "node" (.named "Node"), plainField "user" (.nonNull (.list (.named "User"))),
    plainField "user_next" (.named "User"), plainField "userName" (.named "User"), plainField "username" (.named "Post"),
    plainField "found" (.named "Found"), plainField "other" (.named "Found")] [], none⟩)] }

/-- ```
query Look { user { id friend { name friend { id } } }
  mine: user { node { id ... on User { friend { id } } } } node { id }
  found { ... on User { name friend { id } } ... on Post { title } } }
``` -/
def treeOp : OpDef := ⟨.query, some "Look", [], [
  ask "user" [ask "id", ask "friend" [ask "name", ask "friend" [ask "id"]]],
  .field "user" (some "mine") [] [ask "node" [ask "id", .inline (some "User") [ask "friend" [ask "id"]]]],
  ask "node" [ask "id"],
  ask "found" [.inline (some "User") [ask "name", ask "friend" [ask "id"]], .inline (some "Post") [ask "title"]]]⟩

theorem tree_nested : nestedOf treeSchema "Query" treeOp = [
    ⟨[.key "user", .key "friend", .key "friend"], .object⟩, ⟨[.key "user", .key "friend"], .object⟩, ⟨[.key "user"], .object⟩,
    ⟨[.key "mine", .key "node", .key "friend"], .object⟩, ⟨[.key "mine", .key "node"], .iface "Node"⟩, ⟨[.key "mine"], .object⟩,
    ⟨[.key "node"], .iface "Node"⟩, ⟨[.member "User", .key "friend"], .object⟩, ⟨[.member "User"], .object⟩,
    ⟨[.member "Post"], .object⟩] := by decide +kernel

/-- The hypotheses hold for it. -/
theorem tree_clear : ClearPaths treeSchema (nestedOf treeSchema "Query" treeOp) where
  distinct := by decide +kernel
  letters := by
    rw [tree_nested]
    decide +kernel
  base := by
    rw [tree_nested]
    intro n hn t _ m hm k rest he
    simp only [List.mem_cons, List.not_mem_nil, or_false] at hm
    have hk : k ∈ pathWords m.path := by rw [he]; simp
    have : ∀ k ∈ pathWords m.path, ¬ "base".toList <+: k := by
      rcases hm with rfl | rfl | rfl | rfl | rfl | rfl | rfl | rfl | rfl | rfl <;> decide +kernel
    exact this k hk
  catchAll := by
    intro n _ t _ fs is hl
    cases hl

example : operationNames { schema := treeSchema } treeOp = some ["LookUserFriendFriend", "LookUserFriend", "LookUser",
    "LookMineNodeFriend", "LookMineNodeBase", "LookMineNodeBaseUser", "LookMineNodeBasePost", "LookMineNodeBaseCatchAll",
    "LookMine", "LookNodeBase", "LookNodeBaseUser", "LookNodeBasePost", "LookNodeBaseCatchAll",
    "LookUserInlineFragmentFriend", "LookUserInlineFragment", "LookPostInlineFragment", "Look"] := by
  decide +kernel

/-- C57, limit: `{ userName { name } username { title } }` — fields that differ in case share a class name, although
their types differ. -/
theorem C57_case_counterexample :
    operationNames { schema := treeSchema } ⟨.query, some "Look", [], [ask "userName" [ask "name"], ask "username" [ask "title"]]⟩ =
      some ["LookUsername", "LookUsername", "Look"] := by decide +kernel

/-- C57, limit: `{ user { _next { id } } user_next { id } }` — an underscore in front of a nested key. -/
theorem C57_underscore_counterexample :
    operationNames { schema := treeSchema } ⟨.query, some "Look", [], [ask "user" [ask "_next" [ask "id"]], ask "user_next" [ask "name"]]⟩ =
      some ["LookUser_next", "LookUser", "LookUser_next", "Look"] := by decide +kernel

/-- C57, limit: `{ node { id base { name } } }` — a field `base` of an interface has the class name of the interface's
base class. -/
theorem C57_base_counterexample :
    operationNames { schema := treeSchema } ⟨.query, some "Look", [], [ask "node" [ask "id", ask "base" [ask "name"]]]⟩ =
      some ["LookNodeBase", "LookNodeBase", "LookNodeBaseUser", "LookNodeBasePost", "LookNodeBaseCatchAll", "Look"] := by
  decide +kernel

/-- C57, limit: `{ node { ... on User { friend { name } } ... on Post { friend { title } } } }` — the same key under two
inline fragments. -/
theorem C57_inline_counterexample :
    operationNames { schema := treeSchema } ⟨.query, some "Look", [], [ask "node" [.inline (some "User") [ask "friend" [ask "name"]],
      .inline (some "Post") [ask "friend" [ask "title"]]]]⟩ =
      some ["LookNodeFriend", "LookNodeFriend", "LookNodeBase", "LookNodeBaseUser", "LookNodeBasePost",
        "LookNodeBaseCatchAll", "Look"] := by
  decide +kernel

/-- C57, limit: `{ found { ... on Post { title } } other { ... on Post { id } } }` — two unions selected through
inline fragments on the same type. -/
theorem C57_union_counterexample :
    operationNames { schema := treeSchema } ⟨.query, some "Look", [], [ask "found" [.inline (some "Post") [ask "title"]],
      ask "other" [.inline (some "Post") [ask "id"]]]⟩ =
      some ["LookPostInlineFragment", "LookPostInlineFragment", "Look"] := by
  decide +kernel

end Turms.Props
