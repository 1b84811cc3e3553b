import Verif.Spec.Expr
/-
  Independent specification of Jinja's scoping rules: an abstract syntax of templates, and for every name that is evaluated the bindings
  that Jinja can see there.  Nothing here refers to positions or to the server.
-/

namespace JinjaLsp.Spec

/-- A name bound by a template: where it is written, by what kind of statement, and whether that stands in an `if` that has ended. -/
structure Bound where
  tok : Tok
  kind : IdType
  left : Bool
deriving DecidableEq, Repr

/-- A parameter of a macro, perhaps with a default: the operator and the names in the default. -/
structure Param where
  name : Tok
  default : Option (Tok × List Tok)

/-- the names in the default of a parameter -/
def Param.rhs (p : Param) : List Tok := match p.default with
  | none => []
  | some (_, us) => us

def Param.toks (p : Param) : List HTok := match p.default with
  | none => [.name p.name]
  | some (q, us) => .name p.name :: .eq q :: us.map .name

/-- Templates. -/
inductive Program where
  | done
  /-- `{{ … }}`: what precedes the first inline `if` or `else`, then each of them with what follows it -/
  | out (ts : List HTok) (parts : List (Tok × List HTok)) (rest : Program)
  /-- `{% include … %}`, `{% extends … %}`, `{% do … %}` -/
  | stmt (d : Delims) (ts : List HTok) (rest : Program)
  /-- `{% import … as m %}`, `{% from … import f, g as h %}` with the names it binds -/
  | import_ (d : Delims) (ts : List HTok) (bound : List Tok) (rest : Program)
  /-- `{% set x = … %}` -/
  | set (d : Delims) (kw x : Tok) (ts : List HTok) (rest : Program)
  /-- `{% set x %} … {% endset %}` -/
  | setBlock (d : Delims) (kw x : Tok) (body : Program) (e : EndTag) (rest : Program)
  /-- `{% for x, … in … %} … {% endfor %}`: the first target, further ones, the rest of the tag -/
  | loop (d : Delims) (kw x : Tok) (more : List Tok) (ts : List HTok) (body : Program) (e : EndTag) (rest : Program)
  /-- `{% with a = …, b = … %} … {% endwith %}` -/
  | with_ (d : Delims) (kw : Tok) (as : List Assign) (body : Program) (e : EndTag) (rest : Program)
  /-- `{% macro m(p, q = …) %} … {% endmacro %}` -/
  | macro_ (d : Delims) (kw name : Tok) (ps : List Param) (body : Program) (e : EndTag) (rest : Program)
  /-- `{% call m(…) %} … {% endcall %}` -/
  | call (d : Delims) (ts : List HTok) (body : Program) (e : EndTag) (rest : Program)
  /-- `{% block name %} … {% endblock %}` -/
  | block (d : Delims) (kw name : Tok) (body : Program) (e : EndTag) (rest : Program)
  /-- `{% if … %} … {% endif %}` -/
  | cond (d : Delims) (kw : Tok) (ts : List HTok) (body : Program) (e : EndTag) (rest : Program)
  /-- `{% elif … %}` or `{% else %}`: what follows is another branch of the block around it -/
  | branch (d : Delims) (kw : Tok) (ts : List HTok) (rest : Program)
  /-- `{% filter … %}`, `{% autoescape … %}`, `{% raw %}` up to the end tag -/
  | area (d : Delims) (kw : Tok) (ts : List HTok) (body : Program) (e : EndTag) (rest : Program)

/-! ### Jinja's rules -/

/-- What a template binds in the scope it stands in, latest first.  `if` is not a scope. -/
def Program.binds : Program → List Bound
  | .done => []
  | .out _ _ r | .stmt _ _ r => r.binds
  | .import_ _ _ bound r => r.binds ++ bound.reverse.map fun t => ⟨t, .jinjaTemplate, false⟩
  | .set _ _ x _ r | .setBlock _ _ x _ _ r => r.binds ++ [⟨x, .setVariable, false⟩]
  | .macro_ _ _ name _ _ _ r => r.binds ++ [⟨name, .macroName, false⟩]
  | .cond _ _ _ body _ r => r.binds ++ body.binds.map fun x => { x with left := true }
  | .loop _ _ _ _ _ _ _ r | .with_ _ _ _ _ _ r | .call _ _ _ _ r | .block _ _ _ _ _ r | .area _ _ _ _ _ r | .branch _ _ _ r => r.binds

/-- names evaluated where the bindings `ρ` are visible -/
def evaluated (ρ : List Bound) (us : List Tok) : List (Tok × List Bound) := us.map fun t => (t, ρ)

/-- Every name a template evaluates, with the bindings visible there, latest first.  `σ` is what is visible at the beginning of an `else`
branch of the block around the template, `ρ` what is visible at its beginning.
* Headers are evaluated before their targets are bound.
* The targets of a loop, of `with`, and the parameters of a macro are visible in the body only; a macro in its own body and after it.
* `set`, `import` and macros bind from there on up to the end of the enclosing scope. -/
def Program.sees (σ ρ : List Bound) : Program → List (Tok × List Bound)
  | .done => []
  | .out ts parts r => evaluated ρ (names ts) ++ parts.flatMap (fun q => evaluated ρ (names q.2)) ++ r.sees σ ρ
  | .stmt _ ts r => evaluated ρ (names ts) ++ r.sees σ ρ
  | .import_ _ _ bound r => r.sees σ ((bound.reverse.map fun t => ⟨t, .jinjaTemplate, false⟩) ++ ρ)
  | .set _ _ x ts r => evaluated ρ (names ts) ++ r.sees σ (⟨x, .setVariable, false⟩ :: ρ)
  | .setBlock _ _ x body _ r => body.sees ρ ρ ++ r.sees σ (⟨x, .setVariable, false⟩ :: ρ)
  | .loop _ _ x more ts body _ r =>
    evaluated ρ (names ts) ++ body.sees ρ ((more.reverse.map fun t => ⟨t, .forLoopValue, false⟩) ++ ⟨x, .forLoopKey, false⟩ :: ρ) ++ r.sees σ ρ
  | .with_ _ _ as body _ r =>
    evaluated ρ (as.flatMap Assign.rhs) ++ body.sees ρ ((as.reverse.map fun a => ⟨a.target, .withVariable, false⟩) ++ ρ) ++ r.sees σ ρ
  | .macro_ _ _ name ps body _ r =>
    evaluated ρ (ps.flatMap Param.rhs) ++
      body.sees ρ ((ps.reverse.map fun p => ⟨p.name, .macroParameter, false⟩) ++ ⟨name, .macroName, false⟩ :: ρ) ++ r.sees σ (⟨name, .macroName, false⟩ :: ρ)
  | .call _ ts body _ r => evaluated ρ (names ts) ++ body.sees ρ ρ ++ r.sees σ ρ
  | .block _ _ _ body _ r => body.sees ρ ρ ++ r.sees σ ρ
  | .cond _ _ ts body _ r => evaluated ρ (names ts) ++ body.sees ρ ρ ++ r.sees σ ((body.binds.map fun x => { x with left := true }) ++ ρ)
  | .branch _ _ ts r => evaluated σ (names ts) ++ r.sees σ σ
  | .area _ _ _ body _ r => body.sees ρ ρ ++ r.sees σ ρ

/-- the binding a name is resolved to -/
def resolve (env : List Bound) (n : Str) : Option Bound := env.find? fun x => x.tok.text == n

/-! ### How a template is written -/

def HTok.tok : HTok → Tok
  | .name t | .eq t => t

def tagToks (d : Delims) (ts : List Tok) : List Tok := d.opening :: (ts ++ [d.closing])

def EndTag.toks (e : EndTag) : List Tok := tagToks e.d (e.kw :: e.ts.map HTok.tok)

/-- the tokens of a template, in order -/
def Program.toks : Program → List Tok
  | .done => []
  | .out ts parts r => ts.map HTok.tok ++ (parts.flatMap (fun q => q.1 :: q.2.map HTok.tok) ++ r.toks)
  | .stmt d ts r | .import_ d ts _ r => tagToks d (ts.map HTok.tok) ++ r.toks
  | .set d kw x ts r => tagToks d (kw :: x :: ts.map HTok.tok) ++ r.toks
  | .setBlock d kw x body e r => tagToks d [kw, x] ++ (body.toks ++ (e.toks ++ r.toks))
  | .loop d kw x more ts body e r => tagToks d (kw :: x :: (more ++ ts.map HTok.tok)) ++ (body.toks ++ (e.toks ++ r.toks))
  | .with_ d kw as body e r => tagToks d (kw :: (as.flatMap Assign.toks).map HTok.tok) ++ (body.toks ++ (e.toks ++ r.toks))
  | .macro_ d kw name ps body e r => tagToks d (kw :: name :: (ps.flatMap Param.toks).map HTok.tok) ++ (body.toks ++ (e.toks ++ r.toks))
  | .call d ts body e r => tagToks d (ts.map HTok.tok) ++ (body.toks ++ (e.toks ++ r.toks))
  | .block d kw name body e r => tagToks d [kw, name] ++ (body.toks ++ (e.toks ++ r.toks))
  | .cond d kw ts body e r | .area d kw ts body e r => tagToks d (kw :: ts.map HTok.tok) ++ (body.toks ++ (e.toks ++ r.toks))
  | .branch d kw ts r => tagToks d (kw :: ts.map HTok.tok) ++ r.toks

/-- the tokens inside the tags `{% … %}` of a template -/
def Program.tagged : Program → List Tok
  | .done => []
  | .out _ _ r => r.tagged
  | .stmt d ts r | .import_ d ts _ r => tagToks d (ts.map HTok.tok) ++ r.tagged
  | .set d kw x ts r => tagToks d (kw :: x :: ts.map HTok.tok) ++ r.tagged
  | .setBlock d kw x body e r => tagToks d [kw, x] ++ (body.tagged ++ (e.toks ++ r.tagged))
  | .loop d kw x more ts body e r => tagToks d (kw :: x :: (more ++ ts.map HTok.tok)) ++ (body.tagged ++ (e.toks ++ r.tagged))
  | .with_ d kw as body e r => tagToks d (kw :: (as.flatMap Assign.toks).map HTok.tok) ++ (body.tagged ++ (e.toks ++ r.tagged))
  | .macro_ d kw name ps body e r => tagToks d (kw :: name :: (ps.flatMap Param.toks).map HTok.tok) ++ (body.tagged ++ (e.toks ++ r.tagged))
  | .call d ts body e r => tagToks d (ts.map HTok.tok) ++ (body.tagged ++ (e.toks ++ r.tagged))
  | .block d kw name body e r => tagToks d [kw, name] ++ (body.tagged ++ (e.toks ++ r.tagged))
  | .cond d kw ts body e r | .area d kw ts body e r => tagToks d (kw :: ts.map HTok.tok) ++ (body.tagged ++ (e.toks ++ r.tagged))
  | .branch d kw ts r => tagToks d (kw :: ts.map HTok.tok) ++ r.tagged

/-- tokens with an extent that follow each other without overlap, up to `last` -/
structure InOrder (last : Point) (ts : List Tok) : Prop where
  order : ts.Pairwise fun a b => a.stop ≤ b.start
  spans : ∀ t ∈ ts, t.start < t.stop
  last : ∀ t ∈ ts, t.stop ≤ last

/-- a template as a sequence of tags -/
def Program.items : Program → List Item
  | .done => []
  | .out ts parts r => .leaf (.expr ts) :: (parts.map (fun q => .inline q.1 q.2) ++ r.items)
  | .stmt d ts r | .import_ d ts _ r => .leaf (.stmt d ts) :: r.items
  | .set d kw x ts r => .leaf (.set d kw x ts) :: r.items
  | .setBlock d kw x body e r => .leaf (.set d kw x []) :: (body.items ++ .closing e :: r.items)
  | .loop d kw x more ts body e r => .opening d (.for_ kw x (more.map .name ++ ts)) :: (body.items ++ .closing e :: r.items)
  | .with_ d kw as body e r => .opening d (.with_ kw (as.flatMap Assign.toks)) :: (body.items ++ .closing e :: r.items)
  | .macro_ d kw name ps body e r => .opening d (.macro_ kw name (ps.flatMap Param.toks)) :: (body.items ++ .closing e :: r.items)
  | .call d ts body e r => .leaf (.stmt d ts) :: (body.items ++ .closing e :: r.items)
  | .block d kw name body e r => .opening d (.block kw name []) :: (body.items ++ .closing e :: r.items)
  | .cond d kw ts body e r | .area d kw ts body e r => .opening d (.plain kw ts) :: (body.items ++ .closing e :: r.items)
  | .branch d kw ts r => .opening d (.plain kw ts) :: r.items

/-- the targets of `set`, the first targets of loops, and the names in the headers of `with` and of macros -/
def Program.heads : Program → List Tok
  | .done => []
  | .out _ _ r | .stmt _ _ r | .import_ _ _ _ r | .branch _ _ _ r => r.heads
  | .set _ _ x _ r => x :: r.heads
  | .setBlock _ _ x body _ r | .loop _ _ x _ _ body _ r => x :: (body.heads ++ r.heads)
  | .with_ _ _ as body _ r => names (as.flatMap Assign.toks) ++ (body.heads ++ r.heads)
  | .macro_ _ _ name ps body _ r => name :: names (ps.flatMap Param.toks) ++ (body.heads ++ r.heads)
  | .call _ _ body _ r | .block _ _ _ body _ r | .cond _ _ _ body _ r | .area _ _ _ body _ r => body.heads ++ r.heads

/-! ### Classes of templates -/

/-- bound by `set`, as first target of a loop, in `with`, as macro or parameter of one, and not in an `if` that has ended -/
def Bound.Lexical (x : Bound) : Prop := x.left = false ∧ x.kind ≠ .jinjaTemplate ∧ x.kind ≠ .forLoopValue

instance (x : Bound) : Decidable x.Lexical := inferInstanceAs (Decidable (_ ∧ _))

/-- no block-form `set` and no `call` -/
def Program.Paired : Program → Prop
  | .done => True
  | .out _ _ r | .stmt _ _ r | .set _ _ _ _ r | .branch _ _ _ r | .import_ _ _ _ r => r.Paired
  | .setBlock .. | .call .. => False
  | .loop _ _ _ _ _ body _ r | .with_ _ _ _ body _ r | .macro_ _ _ _ _ body _ r | .block _ _ _ body _ r | .area _ _ _ body _ r
  | .cond _ _ _ body _ r => body.Paired ∧ r.Paired

/-- how many `else`, `elif` and inline `if` a template contains -/
def Program.forks : Program → Nat
  | .done => 0
  | .out _ parts r => parts.length + r.forks
  | .stmt _ _ r | .import_ _ _ _ r | .set _ _ _ _ r => r.forks
  | .branch _ _ _ r => 1 + r.forks
  | .setBlock _ _ _ body _ r | .call _ _ body _ r | .loop _ _ _ _ _ body _ r | .with_ _ _ _ body _ r | .macro_ _ _ _ _ body _ r
  | .block _ _ _ body _ r | .area _ _ _ body _ r | .cond _ _ _ body _ r => body.forks + r.forks

/-- a template that stands in a block (`inside`) or does not, such that
* there are no block-form `set` and no `call`; `else` stands in a block,
* a block with an `else` or an inline `if` in it binds nothing,
* no header evaluates a name it binds, and those of `with` and of macros evaluate no names. -/
def Program.SimpleIn (inside : Bool) : Program → Prop
  | .done => True
  | .out _ _ r | .stmt _ _ r | .import_ _ _ _ r => r.SimpleIn inside
  | .set _ _ x ts r => (∀ t ∈ names ts, t.text ≠ x.text) ∧ r.SimpleIn inside
  | .setBlock .. | .call .. => False
  | .branch _ _ _ r => inside = true ∧ r.SimpleIn inside
  | .loop _ _ x _ ts body _ r => (∀ t ∈ names ts, t.text ≠ x.text) ∧ body.forks = 0 ∧ body.SimpleIn true ∧ r.SimpleIn inside
  | .with_ _ _ as body _ r => (∀ a ∈ as, a.rhs = []) ∧ body.forks = 0 ∧ body.SimpleIn true ∧ r.SimpleIn inside
  | .macro_ _ _ _ ps body _ r => (∀ p ∈ ps, p.rhs = []) ∧ body.forks = 0 ∧ body.SimpleIn true ∧ r.SimpleIn inside
  | .block _ _ _ body _ r | .cond _ _ _ body _ r | .area _ _ _ body _ r =>
    (body.forks = 0 ∨ body.binds = []) ∧ body.SimpleIn true ∧ r.SimpleIn inside

def Program.Simple (p : Program) : Prop := p.SimpleIn false

/-- the names of the blocks of a template -/
def Program.blocks : Program → List Str
  | .done => []
  | .out _ _ r | .stmt _ _ r | .set _ _ _ _ r | .branch _ _ _ r | .import_ _ _ _ r => r.blocks
  | .block _ _ name body _ r => name.text :: (body.blocks ++ r.blocks)
  | .setBlock _ _ _ body _ r | .call _ _ body _ r | .loop _ _ _ _ _ body _ r | .with_ _ _ _ body _ r | .macro_ _ _ _ _ body _ r
  | .area _ _ _ body _ r | .cond _ _ _ body _ r => body.blocks ++ r.blocks

end JinjaLsp.Spec
