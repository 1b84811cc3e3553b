import Verif.Model.Queries
import Verif.Model.Objects
import Verif.Model.Imports
import Verif.Model.Definition
import Verif.Model.Backend
/-
  The cases of the repository's own tests (jinja-lsp-queries/src/search/test_queries.rs), evaluated in the model.  They are no part of
  any proof; they are evidence that the model behaves as its authors say the program does.

  The grammars are not part of the model, so the trees are made here: for Jinja by a small scanner that imitates the grammar as far as
  the tests need it (flat statements, a bar together with the space after it as one operator, a missing end of a tag at the end of the
  text), for Rust and Python by hand.
-/

namespace JinjaLsp
namespace Upstream

/-! ## A scanner for Jinja -/

structure Tok where
  kind : SKind
  start : Point
  stop : Point
  text : Str
  /-- begins or ends `{{ }}` -/
  expr : Bool := false

/-- the position after some characters -/
def after (p : Point) : Str → Point
  | [] => p
  | ch :: cs => after (if ch = '\n' then ⟨p.row + 1, 0⟩ else ⟨p.row, p.column + 1⟩) cs

def blank (ch : Char) : Bool := ch = ' ' || ch = '\n' || ch = '\t'

def letter (ch : Char) : Bool := ch.isAlphanum || ch = '_'

/-- the words that are keywords in the tests -/
def keywords : List Str :=
  [c!"macro", c!"endmacro", c!"set", c!"endset", c!"with", c!"endwith", c!"for", c!"in", c!"endfor", c!"if", c!"endif", c!"include",
   c!"import", c!"from", c!"is", c!"ignore", c!"missing"]

/-- how a tag ends -/
def closers : List (Str × Bool) := [(c!"-%}", false), (c!"%}", false), (c!"-}}", true), (c!"}}", true)]

def openers : List (Str × Bool) := [(c!"{%-", false), (c!"{%", false), (c!"{{-", true), (c!"{{", true)]

/-- the tokens of a text; `inside`: within a tag (`{{ }}` if true) -/
def scan : Nat → Option Bool → Point → Str → List Tok
  | 0, _, _, _ => []
  | _ + 1, none, _, [] => []
  | _ + 1, some e, p, [] => [⟨if e then .other else .statementEnd, p, p, [], e⟩]
  | n + 1, none, p, ch :: cs =>
    match openers.find? fun o => o.1.isPrefixOf (ch :: cs) with
    | some (t, e) =>
      ⟨if e then .other else .statementBegin, p, after p t, t, e⟩ :: scan n (some e) (after p t) ((ch :: cs).drop t.length)
    | none => scan n none (after p [ch]) cs
  | n + 1, some e, p, ch :: cs =>
    match closers.find? fun o => o.1.isPrefixOf (ch :: cs) && o.2 == e with
    | some (t, _) =>
      ⟨if e then .other else .statementEnd, p, after p t, t, e⟩ :: scan n none (after p t) ((ch :: cs).drop t.length)
    | none =>
      if blank ch then scan n (some e) (after p [ch]) cs
      else if ch = '"' || ch = '\'' then
        let t := ch :: cs.takeWhile (· ≠ ch) ++ [ch]
        ⟨.string, p, after p t, t, false⟩ :: scan n (some e) (after p t) ((ch :: cs).drop t.length)
      else if letter ch then
        let t := (ch :: cs).takeWhile letter
        ⟨if t ∈ keywords then .keyword else .identifier, p, after p t, t, false⟩ ::
          scan n (some e) (after p t) ((ch :: cs).drop t.length)
      else if ch = '}' then ⟨.error, p, after p [ch], [ch], false⟩ :: scan n (some e) (after p [ch]) cs
      else
        let t := if ch = '|' then ch :: cs.takeWhile blank
          else if ch = '=' && cs.head? = some '=' then c!"=="
          else [ch]
        ⟨.operator, p, after p t, t, false⟩ :: scan n (some e) (after p t) ((ch :: cs).drop t.length)

def Tok.syn (i : Nat) (t : Tok) : Syn := .node t.kind none i t.start t.stop (some t.text) []

/-- tags from tokens; `cur` are the parts of the current tag, the last first -/
def tags : Nat → List Syn → List Tok → List Syn
  | _, _, [] => []
  | i, cur, t :: ts =>
    let part := t.syn i
    if cur.isEmpty then tags (i + 1) [part] ts
    else if t.kind = .statementEnd || t.expr then
      let first := (cur.getLast?.map Syn.start).getD t.start
      .node (if t.expr then .expression else .statement) none (1000 + i) first t.stop (some []) (part :: cur).reverse :: tags (i + 1) [] ts
    else tags (i + 1) (part :: cur) ts

def parse (text : Str) : Syn :=
  .node .other none 0 ⟨0, 0⟩ (after ⟨0, 0⟩ text) (some []) (tags 1 [] (scan (text.length + 2) none ⟨0, 0⟩ text))

def syntax_ : Syntax := ⟨fun _ text => parse text, Char.isDigit, fun _ _ => [[]], fun _ => false⟩

/-- any parse tree; the scanner reads the text -/
def tree : Tree := .parsed .jinja [] none

def base (root : Syn) : Env where
  profile := .debug
  parseFails := fun _ _ _ => false
  rootEnd := fun _ => root.stop
  queryMatches := fun _ _ _ => []
  urlParse := some
  tomlConfig := fun _ => none

def env (text : Str) : Env := (base (parse text)).over syntax_

/-! ## test_queries.rs:51-100 `jinja_definitions` -/

def definitions (text : Str) : Option (List Identifier) :=
  ((definitionQuery (env text) tree Point.zero text true).toOption).map (·.identifiers)

def definitions1 : Str := c!"
        {% macro do_something(a, b,c) %}
            <p>Hello world</p>
            {% set class = \"button\" -%}
            {% with name = 55 %}
                <p>Hello {{ name }}</p>
            {% endwith %}
        {% endmacro %}

        {% for i in 10 -%}
        {%- endfor %}

        {{ point }}
        {{ point }}        
        "

example : (definitions definitions1).map List.length = some 7 := by decide +kernel

def definitions2 : Str := c!"
            {% with name = 55 %}
                <p>Hello {{ name }}</p>
                {% set a = \"hello world\" %}
                {% set b %}
                    some content
                {% endset %}
            {% endwith %}
            {% for i in 10 -%}
            {%- endfor %}

            {{ point }}
            {{ point }}
            "

example : (definitions definitions2).map List.length = some 4 := by decide +kernel

/-! ## test_queries.rs:102-150 `jinja_identifiers` -/

/-- how many names are used in a text -/
def uses (text : Str) : Option Nat := ((objectsQuery (env text) tree Point.zero text true).toOption).map (·.objects.length)

example : uses c!"
            {{ user.id }}
            {% for i in 10 -%}
                {{ i }}
            {%- endfor %}
            {% set class = \"button\" -%}
        " = some 4 := by decide +kernel

example : uses c!"
        {{ obj.abc obj2.abc2 }}

        {{ obj3.field.something.something == obj4.something }}

        {% if obj5.field -%}
        111 {{ abc == def.abc }}
        {% endif %}
        " = some 7 := by decide +kernel

example : uses c!"
        <p> {{ something }}</p>
        <p hx-swap=\"innerHTML\"> {{ something | some_filter(a, b,c) }} </p>            
        {% for i in something -%}
            {{ i }}
        {%- endfor %}
        {% if something %}
            {{ something }}
        {% endif %}
        " = some 11 := by decide +kernel

/-! ## test_queries.rs:189-317 `find_jinja_completion` -/

/-- what is completed at a position -/
def completed (text : Str) (all : Bool) (p : Point) : Option (Option (CompletionType × Bool)) :=
  match objectsQuery (env text) tree p text all with
  | .ok o => (o.completion .debug p).toOption
  | .error _ => none

def completion1 : Str := c!"
            {{ something |     filter1 | filter2 }}
            {{ some_identifier.otherfields }}
            {% if something == 11 -%}
            {% macro example(a, b, c) -%}
            <p> hello world</p> 
            {%- endmacro %}

            {{ }}
            {{ \"|\" }}
            {{ identifier }}
            {{}}    
            {{ identifier }}   
        "

/-- `IncompleteIdentifier` with a range in one row -/
def partOf (name : Str) (row a b : Nat) : Option (CompletionType × Bool) :=
  some (.incompleteIdentifier name ⟨⟨row, a⟩, ⟨row, b⟩⟩, false)

def completions1 : List (Point × Option (CompletionType × Bool)) :=
  [(⟨2, 24⟩, partOf c!"some_iden" 2 15 42),
   (⟨1, 27⟩, some (.filter, false)),
   (⟨1, 47⟩, partOf c!"filter" 1 41 48),
   (⟨1, 46⟩, partOf c!"filte" 1 41 48),
   (⟨1, 40⟩, some (.filter, false)),
   (⟨1, 50⟩, some (.identifier, false)),
   (⟨3, 18⟩, none),
   (⟨4, 20⟩, none),
   (⟨3, 22⟩, none),
   (⟨8, 15⟩, some (.identifier, false)),
   (⟨9, 18⟩, some (.identifier, false)),
   (⟨10, 18⟩, partOf c!"ide" 10 15 25),
   (⟨10, 25⟩, partOf c!"identifier" 10 15 25),
   (⟨11, 14⟩, some (.identifier, false)),
   (⟨12, 25⟩, partOf c!"identifier" 12 15 25),
   (⟨11, 14⟩, some (.identifier, false)),
   (⟨11, 19⟩, none),
   (⟨12, 28⟩, none)]

example : ∀ c ∈ completions1, completed completion1 false c.1 = some c.2 := by decide +kernel

example : completed c!"
            {{
        " false ⟨1, 14⟩ = some (some (.identifier, true)) := by decide +kernel

/-! ## test_queries.rs:319-356 `check_jinja_templates` -/

/-- the template name under the cursor -/
def template (text : Str) (p : Point) : Option Str :=
  ((templatesQuery (env text) tree p text false).inTemplate.bind fun i => i.getIdentifier p).map (·.name)

def templates1 : Str := c!"
        <div class=\"bg-white overflow-hidden shadow rounded-lg border\">
            {% include 'header.jinja' %}
            {% include 'customization.jinja' ignore missing %}
            {% include ['page_detailed.jinja', 'page.jinja'] %}
            {% import \"header.jinja\"  %}
            {% from \"page_detailed.jinja\" import a %}
        </div> 	    
        "

example : ∀ c ∈ [(Point.mk 2 25, c!"header.jinja"), (⟨3, 30⟩, c!"customization.jinja"), (⟨4, 36⟩, c!"page_detailed.jinja"),
    (⟨4, 50⟩, c!"page.jinja"), (⟨5, 34⟩, c!"header.jinja"), (⟨6, 39⟩, c!"page_detailed.jinja")],
    template templates1 c.1 = some c.2 := by decide +kernel

/-! ## test_queries.rs:417-439 `jinja_definition_scope` -/

def scopes1 : Str := c!"
    {% macro hello_world(parameter) -%}
        <p class=\"text-sm font-medium text-green-500\"> hello world <p>
        {{ PROJECT_NAME | length }}
        {{ parameter }}
            {% macro primer(parameter2) %}
                {{ parameter }}
            {% endmacro %}
        {% set b = 11 %}
    {% endmacro %}
        "

example : (definitions scopes1).bind (fun is => is.getLast?.map Identifier.scopeEnd) = some ⟨9, 4⟩ := by decide +kernel

/-! ## test_queries.rs:441-459 `snippets` -/

def broken (text : Str) (p : Point) : Bool := (snippetsQuery (env text) tree p text false).isError

example : broken c!"{% if} {% if a == 123 %} {{ a }} {% endif %}" ⟨0, 5⟩ = true := by decide +kernel
example : broken c!"{% with} {{ var }} {% with %}" ⟨0, 26⟩ = true := by decide +kernel
example : broken c!"{% with  " ⟨0, 9⟩ = false := by decide +kernel

/-! ## test_queries.rs:477-496 `test_jinja_test_completion` -/

example : completed c!"
            {% is  %}

           " true ⟨1, 18⟩ = some (some (.test, false)) := by decide +kernel

/-! ## Rust and Python

The trees are written by hand: the kinds of nodes and fields are those of the grammars, and places matter only in two of the tests. -/

/-- a node on one row -/
def at_ (k : SKind) (f : Option SField) (row a b : Nat) (t : Str) (cs : List Syn := []) : Syn := .node k f (100 * row + a) ⟨row, a⟩ ⟨row, b⟩ (some t) cs

/-- a node whose place does not matter -/
def nd (k : SKind) (t : Str) (cs : List Syn := []) : Syn := at_ k none 0 0 1 t cs

/-- a node filling a field -/
def fd (f : SField) (k : SKind) (t : Str) (cs : List Syn := []) : Syn := at_ k (some f) 0 0 1 t cs

def over (root : Syn) : Env := (base root).over ⟨fun _ _ => root, Char.isDigit, fun _ _ => [[]], fun _ => false⟩

/-- ```
let a = context!(name => 11 + abc, abc => "username");
let b = context!{name, username => "username" }
let price = 100;
let c = context!{ price };
jinja.add_filter("running_locally", true);
jinja.add_function("some_fn", some_fn);
``` -/
def rust1 : Syn :=
  let ctx (parts : List Syn) := nd .macroInvocation [] [nd .identifier c!"context", nd .tokenTree [] parts]
  let method (name : Str) (args : List Syn) :=
    nd .callExpression [] [nd .fieldExpression [] [nd .identifier c!"jinja", nd .fieldIdentifier name], nd .arguments [] args]
  nd .other [] [
    nd .other [] [nd .identifier c!"a", ctx [nd .identifier c!"name", nd .other c!"11", nd .identifier c!"abc", nd .identifier c!"abc",
      nd .stringLiteral c!"\"username\""]],
    nd .other [] [nd .identifier c!"b", ctx [nd .identifier c!"name", nd .identifier c!"username", nd .stringLiteral c!"\"username\""]],
    nd .other [] [nd .identifier c!"price", nd .other c!"100"],
    nd .other [] [nd .identifier c!"c", ctx [nd .identifier c!"price"]],
    nd .other [] [method c!"add_filter" [nd .stringLiteral c!"\"running_locally\"", nd .other c!"true"]],
    nd .other [] [method c!"add_function" [nd .stringLiteral c!"\"some_fn\"", nd .identifier c!"some_fn"]]]

/-- test_queries.rs:152-169 `rust_definition` -/
example : (backendDefinitionQuery (over rust1) .rust tree Point.zero [] true).length = 8 := by decide +kernel

/-- ```
jinja_env.globals['a'] = 1
render_template(data=123)
some_obj.render_template(first_name = "John", last_name = "Doe")
render(a=11)
``` -/
def python1 : Syn :=
  let kw (name : Str) := nd .keywordArgument [] [fd .name .identifier name, nd .other []]
  let attr (o a : Str) (f : Option SField) := at_ .attribute f 0 0 1 [] [fd .object .identifier o, fd .attribute .identifier a]
  nd .other [] [
    nd .other [] [nd .subscript [] [attr c!"jinja_env" c!"globals" none, nd .string [] [nd .stringContent c!"a"]], nd .other c!"1"],
    nd .call [] [fd .function .identifier c!"render_template", fd .arguments .argumentList [] [kw c!"data"]],
    nd .call [] [attr c!"some_obj" c!"render_template" (some .function), fd .arguments .argumentList [] [kw c!"first_name", kw c!"last_name"]],
    nd .call [] [fd .function .identifier c!"render", fd .arguments .argumentList [] [kw c!"a"]]]

/-- test_queries.rs:171-187 `python_definition` -/
example : (backendDefinitionQuery (over python1) .python tree Point.zero [] true).length = 5 := by decide +kernel

/-- ```
get_template("",11);
render_jinja("some_template.jinja");
render_jinja(1,2, 3, "some_template.jinja");
render_jinja(1,2, 3);
add_global("PROJECT_NAME", "Example");
``` -/
def rust2 : Syn :=
  let call (name : Str) (args : List Syn) := nd .other [] [nd .callExpression [] [nd .identifier name, nd .arguments [] args]]
  let num := nd .other c!"1"
  nd .other [] [
    call c!"get_template" [nd .stringLiteral c!"\"\"", num],
    call c!"render_jinja" [nd .stringLiteral c!"\"some_template.jinja\""],
    call c!"render_jinja" [num, num, num, nd .stringLiteral c!"\"some_template.jinja\""],
    call c!"render_jinja" [num, num, num],
    call c!"add_global" [nd .stringLiteral c!"\"PROJECT_NAME\"", nd .stringLiteral c!"\"Example\""]]

/-- test_queries.rs:358-374 `jinja_templates_in_rust` -/
example : (backendTemplatesQuery (over rust2) .rust tree Point.zero [] true).templates.length = 3 := by decide +kernel

/-- four calls, each of a method with the string at the same columns as in the tests -/
def calls (callKind argsKind via part literal : SKind) : Syn :=
  let call (row : Nat) (name : Str) (a b : Nat) (t : Str) :=
    at_ callKind none row 22 60 [] [at_ via none row 22 40 [] [at_ .identifier none row 22 27 c!"jinja", at_ part none row 28 40 name],
      at_ argsKind none row 40 60 [] [at_ literal none row a b t]]
  nd .other [] [call 1 c!"get_template" 42 52 c!"\"account3\"", call 2 c!"get_template" 42 52 c!"\"account2\"",
    call 3 c!"get_template" 41 50 c!"\"account\"", call 4 c!"anything" 37 46 c!"\"account\""]

/-- the completion at a place in a backend file -/
def typed (root : Syn) (g : Grammar) (p : Point) : Option Str :=
  ((backendTemplatesQuery (over root) g tree p [] false).inTemplate p).bind fun i => ((completionStart .debug p i).toOption).bind id

/-- test_queries.rs:376-394 `template_completion_in_rust` -/
example : typed (calls .callExpression .arguments .fieldExpression .fieldIdentifier .stringLiteral) .rust ⟨3, 47⟩ = some c!"acco" := by
  decide +kernel

/-- test_queries.rs:396-415 `template_completion_in_python` -/
example : typed (calls .call .argumentList .attribute .identifier .string) .python ⟨3, 47⟩ = some c!"acco" := by
  decide +kernel

/-- ```
[page.text
     for page in retrieval.result.other.field]
``` -/
def python2 : Syn :=
  let id_ (row a b : Nat) (t : Str) := at_ .identifier none row a b t
  let attr (row a b : Nat) (cs : List Syn) := at_ .attribute none row a b [] cs
  nd .other [] [attr 1 13 22 [id_ 1 13 17 c!"page", id_ 1 18 22 c!"text"],
    nd .other [] [id_ 2 21 25 c!"page",
      attr 2 29 57 [attr 2 29 51 [attr 2 29 45 [id_ 2 29 38 c!"retrieval", id_ 2 39 45 c!"result"], id_ 2 46 51 c!"other"],
        id_ 2 52 57 c!"field"]]]

/-- test_queries.rs:461-475 `test_python_identifiers`, whatever the order of the hash map -/
example (o : HashOrder) : (pythonIdentifiers (over python2) o tree [] 0).length = 2 := by
  have h : (pythonGroup HMap.empty ((over python2).queryMatches .pythonIdentifiers tree []).flatten).entries.length = 2 := by
    decide +kernel
  simp only [pythonIdentifiers, pythonMerge, List.length_map]
  rw [(o.perm 0 _).length_eq, h]

end Upstream
end JinjaLsp
