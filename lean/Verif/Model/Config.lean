import Verif.Model.Server
/-
  Settings as they arrive: config.rs:18-32 (the structures `serde` decodes), channels/lsp.rs:52-61 and 352-355 (settings sent by the client),
  editors/code (the settings the plugin for Visual Studio Code sends).
-/

namespace JinjaLsp

/-- A `serde_json::Value` (numbers without their value), also a TOML value (without `null`; dates count as numbers).
The members of an object have different keys (`serde_json::Map`, TOML tables). -/
inductive Value where
  | null
  | bool (b : Bool)
  | num
  | str (s : Str)
  | arr (vs : List Value)
  | obj (m : List (Str × Value))

namespace Value

/-- `String`/`PathBuf` from a value (config.rs:20, 22) -/
def asStr : Value → Option Str
  | .str s => some s
  | _ => none

/-- the elements of a `Vec<String>` -/
def allStrs : List Value → Option (List Str)
  | [] => some []
  | v :: vs => v.asStr.bind fun s => (allStrs vs).map (s :: ·)

/-- `Vec<String>` from a value (config.rs:21) -/
def asStrs : Value → Option (List Str)
  | .arr vs => allStrs vs
  | _ => none

/-- `Option<bool>` from a value (config.rs:25) -/
def asFlag : Value → Option (Option Bool)
  | .null => some none
  | .bool b => some (some b)
  | _ => none

end Value

/-- the fields read so far (`visit_map` of the derived `Deserialize`, config.rs:18-26) -/
structure Fields where
  templates : Option Str
  backend : Option (List Str)
  lang : Option Str
  hideUndefined : Option (Option Bool)
deriving DecidableEq, Repr

namespace Fields

def none : Fields := ⟨.none, .none, .none, .none⟩

/-- One member.  A second member of the same name is an error (`duplicate_field`); unknown names are skipped, also `user_defined`, which is
`#[serde(skip)]`. -/
def read (f : Fields) (key : Str) (v : Value) : Option Fields :=
  if key = c!"templates" then
    if f.templates.isSome then .none else v.asStr.map fun x => { f with templates := some x }
  else if key = c!"backend" then
    if f.backend.isSome then .none else v.asStrs.map fun x => { f with backend := some x }
  else if key = c!"lang" then
    if f.lang.isSome then .none else v.asStr.map fun x => { f with lang := some x }
  else if key = c!"hide_undefined" then
    if f.hideUndefined.isSome then .none else v.asFlag.map fun x => { f with hideUndefined := some x }
  else some f

/-- all members, in the order of the map -/
def readAll : Fields → List (Str × Value) → Option Fields
  | f, [] => some f
  | f, e :: m => (f.read e.1 e.2).bind fun f' => readAll f' m

/-- the end of `visit_map`: a missing field is an error unless it is an `Option` -/
def finish (f : Fields) : Option JinjaConfig :=
  match f.templates, f.backend, f.lang with
  | some t, some b, some l => some ⟨t, b, l, false, f.hideUndefined.getD .none⟩
  | _, _, _ => .none

end Fields

/-- `serde_json::from_value::<JinjaConfig>` (config.rs:18-26, lsp.rs:54, 352).  An array is read as the list of the fields that are not
skipped, all of them and no more. -/
def decodeConfig : Value → Option JinjaConfig
  | .obj m => (Fields.none.readAll m).bind Fields.finish
  | .arr [t, b, l, h] => Fields.finish ⟨t.asStr, b.asStrs, l.asStr, h.asFlag⟩ |>.bind fun c => h.asFlag.map fun _ => c
  | _ => none

/-- `ExternalConfig` from a TOML document whose section is a table (config.rs:28-32): `jinja-lsp` is required, other keys are skipped -/
def decodeExternal (m : List (Str × Value)) : Option JinjaConfig :=
  match m.find? fun e => e.1 = c!"jinja-lsp" with
  | some (_, .obj section_) => decodeConfig (.obj section_)
  | _ => none

/-- lsp.rs:52-61 with backend.rs:33-38: `initialize` as it arrives -/
def Msg.initializeWith (client : Option Str) (options : Option Value) : Msg := .initialize client (options.map decodeConfig)

/-- lsp.rs:350-355: `workspace/didChangeConfiguration` as it arrives -/
def Msg.changeSettings (settings : Value) : Msg := .didChangeConfiguration (decodeConfig settings)

/-- editors/code/package.json:34-60: the defaults of the settings of the plugin for Visual Studio Code -/
def pluginDefaults : List (Str × Value) :=
  [(c!"templates", .str c!"./templates"), (c!"backend", .arr [.str c!"./src"]), (c!"lang", .str c!"rust")]

/-- editors/code/client/src/extension.ts:26-28, 44: the initialization options the plugin sends: everything the user has set in the section
`jinja-lsp`, and the defaults for the rest -/
def pluginOptions (user : List (Str × Value)) : Value :=
  .obj (user ++ pluginDefaults.filter fun d => decide (d.1 ∉ user.map Prod.fst))

end JinjaLsp
