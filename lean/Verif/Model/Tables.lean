import Verif.Model.Ident
/-
  Constant tables: filter/mod.rs, template_tests/mod.rs, snippets_completion.rs.
  The documentation text of an entry is represented by the path given to `include_str!`.
-/

namespace JinjaLsp

/-- filter/mod.rs:18-59 `init_filter_completions`: name and documentation file. -/
def filterTable : List (Str × Str) :=
  [(c!"abs", c!"md/filters/abs.md"),
   (c!"attr", c!"md/filters/attr.md"),
   (c!"batch", c!"md/filters/batch.md"),
   (c!"bool", c!"md/filters/bool.md"),
   (c!"capitalize", c!"md/filters/capitalize.md"),
   (c!"default", c!"md/filters/default.md"),
   (c!"dictsort", c!"md/filters/dictsort.md"),
   (c!"escape", c!"md/filters/escape.md"),
   (c!"first", c!"md/filters/first.md"),
   (c!"float", c!"md/filters/float.md"),
   (c!"indent", c!"md/filters/indent.md"),
   (c!"int", c!"md/filters/int.md"),
   (c!"items", c!"md/filters/items.md"),
   (c!"join", c!"md/filters/join.md"),
   (c!"last", c!"md/filters/last.md"),
   (c!"length", c!"md/filters/length.md"),
   (c!"list", c!"md/filters/list.md"),
   (c!"lower", c!"md/filters/lower.md"),
   (c!"map", c!"md/filters/map.md"),
   (c!"max", c!"md/filters/max.md"),
   (c!"min", c!"md/filters/min.md"),
   (c!"pprint", c!"md/filters/pprint.md"),
   (c!"rejectattr", c!"md/filters/rejectattr.md"),
   (c!"reject", c!"md/filters/reject.md"),
   (c!"replace", c!"md/filters/replace.md"),
   (c!"reverse", c!"md/filters/reverse.md"),
   (c!"round", c!"md/filters/round.md"),
   (c!"safe", c!"md/filters/safe.md"),
   (c!"selectattr", c!"md/filters/selectattr.md"),
   (c!"select", c!"md/filters/select.md"),
   (c!"slice", c!"md/filters/slice.md"),
   (c!"sort", c!"md/filters/sort.md"),
   (c!"title", c!"md/filters/title.md"),
   (c!"tojson", c!"md/filters/tojson.md"),
   (c!"trim", c!"md/filters/trim.md"),
   (c!"unique", c!"md/filters/unique.md"),
   (c!"upper", c!"md/filters/upper.md"),
   (c!"urlencode", c!"md/filters/urlencode.md")]

/-- template_tests/mod.rs:18-52 `init_template_test_completions`: name and documentation file. -/
def testTable : List (Str × Str) :=
  [(c!"boolean", c!"md/is_boolean.md"),
   (c!"defined", c!"md/is_defined.md"),
   (c!"divisibleby", c!"md/is_divisibleby.md"),
   (c!"endingwith", c!"md/is_endingwith.md"),
   (c!"eq", c!"md/is_eq.md"),
   (c!"even", c!"md/is_even.md"),
   (c!"false", c!"md/is_false.md"),
   (c!"filter", c!"md/is_filter.md"),
   (c!"float", c!"md/is_float.md"),
   (c!"ge", c!"md/is_ge.md"),
   (c!"gt", c!"md/is_gt.md"),
   (c!"in", c!"md/is_in.md"),
   (c!"integer", c!"md/is_integer.md"),
   (c!"iterable", c!"md/is_iterable.md"),
   (c!"le", c!"md/is_le.md"),
   (c!"lower", c!"md/is_lower.md"),
   (c!"lt", c!"md/is_lt.md"),
   (c!"mapping", c!"md/is_mapping.md"),
   (c!"ne", c!"md/is_ne.md"),
   (c!"none", c!"md/is_none.md"),
   (c!"number", c!"md/is_number.md"),
   (c!"odd", c!"md/is_odd.md"),
   (c!"safe", c!"md/is_safe.md"),
   (c!"sameas", c!"md/is_sameas.md"),
   (c!"sequence", c!"md/is_sequence.md"),
   (c!"startingwith", c!"md/is_startingwith.md"),
   (c!"string", c!"md/is_string.md"),
   (c!"test", c!"md/is_test.md"),
   (c!"true", c!"md/is_true.md"),
   (c!"undefined", c!"md/is_undefined.md"),
   (c!"upper", c!"md/is_upper.md")]

/-- snippets_completion.rs:85-182 `snippets`: label, detail, inserted text. -/
def snippetTable : List (Str × Str × Str) :=
  [(c!"for1", c!"Basic for loop", c!" for ${1:i} in ${2:items} %}\n{% endfor %}\n"),
   (c!"for2", c!"For loop with key and value", c!" for (${1:key}, ${2:value}) in ${3:items} %}\n{% endfor %}\n"),
   (c!"with", c!"With block", c!" with $1 %}\n{% endwith %}\n"),
   (c!"set1", c!"Set variable that is current scope", c!" set ${1:key} = ${2:value} %}\n            "),
   (c!"set2", c!"Set with scope", c!" set ${1:data} %}\n{% endset %}\n\n"),
   (c!"include", c!"Include template", c!" include \"$1\" %}\n            "),
   (c!"from", c!"Import from other template", c!" from \"$1\" import ${2:module} %}\n            "),
   (c!"import", c!"Import entire template as module", c!" import \"$1\" as ${2:module} %}\n            "),
   (c!"extends", c!"Extend parent template", c!" extends \"$1\" %}\n            "),
   (c!"if1", c!"If statement", c!" if $1 %}\n{% endif %}\n"),
   (c!"if2", c!"If statement", c!" if $1 %}\n{% elif $2 %}\n{% endif %}\n")]

end JinjaLsp
