import Verif.Spec.Template
/-
  Independent specification for statements that name other templates, with the captures JINJA_IMPORTS (queries.rs:113-165)
  reports for them: one match per name of an include list, and one per imported identifier of an import.
-/

namespace JinjaLsp.Spec

/-- `{% extends "a" %}`, `{% include ["a", "b"] %}`, `{% from "a" import x, y %}`, `{% import "a" as x %}`.  `head` is the statement
node, `kw` its keyword, `matches` what follows the name in each match of an import (the keyword and identifier captures). -/
inductive ImpStmt where
  | extends (head kw name : Tok)
  | include (head kw : Tok) (names : List Tok)
  | from_ (head kw name : Tok) (matches_ : List (List Capture))
  | import_ (head kw name : Tok) (matches_ : List (List Capture))

namespace ImpStmt

def head : ImpStmt → Tok
  | .extends h _ _ => h
  | .include h _ _ => h
  | .from_ h _ _ _ => h
  | .import_ h _ _ _ => h

/-- the template names of the statement -/
def names : ImpStmt → List Tok
  | .extends _ _ t => [t]
  | .include _ _ ts => ts
  | .from_ _ _ t _ => [t]
  | .import_ _ _ t _ => [t]

def extras : ImpStmt → List (List Capture)
  | .extends _ _ _ => [[]]
  | .include _ _ _ => [[]]
  | .from_ _ _ _ ms => ms
  | .import_ _ _ _ ms => ms

def caps : ImpStmt → List Capture
  | .extends h k t => [h.cap .extends, k.cap .other, t.cap .templateName]
  | .include h k ts => ts.flatMap fun t => [h.cap .include, k.cap .other, t.cap .templateName]
  | .from_ h k t ms => ms.flatMap fun m => [h.cap .from_, k.cap .other, t.cap .templateName] ++ m
  | .import_ h k t ms => ms.flatMap fun m => [h.cap .import_, k.cap .other, t.cap .templateName] ++ m

end ImpStmt

/-- the captures that announce a statement -/
def isStmt (c : Capture) : Prop := c.name = .extends ∨ c.name = .include ∨ c.name = .from_ ∨ c.name = .import_

/-- a document with the cursor `p` inside the name `t` of the statement `s`: `before` are the captures before it (no syntax error
among them), `rest` those after it -/
structure OnName (cs : List Capture) (before : List Capture) (s : ImpStmt) (t : Tok) (rest : List Capture) (p : Point) : Prop where
  caps : cs = before ++ (s.caps ++ rest)
  /-- earlier captures are not errors, have a text and belong to other statements -/
  earlier : ∀ c ∈ before, c.name ≠ .error ∧ c.text ≠ none ∧ (isStmt c → c.id ≠ s.head.node)
  name : t ∈ s.names
  head : s.head.start ≤ p
  start : t.start ≤ p
  stop : p ≤ t.stop
  /-- the names of an include list do not overlap -/
  only : ∀ t' ∈ s.names, t'.start ≤ p → p ≤ t'.stop → t' = t
  /-- imported identifiers come after the name -/
  some_match : s.extras ≠ []
  ids : ∀ m ∈ s.extras, ∀ c ∈ m, p < c.start
  after : ∀ c ∈ rest, p < c.start

end JinjaLsp.Spec
