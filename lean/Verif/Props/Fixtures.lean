import Verif.Lemmas.Server
/- Concrete environments used in the `example`s that show hypotheses are satisfiable. -/

namespace JinjaLsp.Fix

/-- every parse succeeds, no query matches anything, every string is a URL -/
def env : Env where
  profile := .debug
  parseFails := fun _ _ _ => false
  rootEnd := fun _ => ⟨9, 9⟩
  queryMatches := fun _ _ _ => []
  urlParse := some
  tomlConfig := fun _ => none

/-- like `env`, with the given captures (one match each) for one query -/
def envWith (q : QueryId) (cs : List Capture) : Env :=
  { env with queryMatches := fun q' _ _ => if q' = q then cs.map fun c => [c] else [] }

/-- all paths exist, no file is readable, directories are empty -/
def world : World where
  canonicalize := .ok
  readFile := fun _ => none
  walk := fun _ => []
  order := HashOrder.id

/-- no path exists -/
def emptyWorld : World := { world with canonicalize := fun _ => .error .notFound }

def uriA : Str := c!"file:///a.html"
def uriB : Str := c!"file:///b.html"

/-- a workspace that holds two templates -/
def files : LspFiles :=
  { LspFiles.default with
    documents := (HMap.empty.insert uriA c!"aaa").insert uriB c!"bbb"
    trees := fun l => match l with
      | .template => (HMap.empty.insert uriA (.parsed .jinja c!"aaa" none)).insert uriB
          (.parsed .jinja c!"bbb" none)
      | .backend => HMap.empty
    variables := (HMap.empty.insert uriA []).insert uriB []
    mainChannel := true }

def server : Server := { Server.init with files := files }

end JinjaLsp.Fix
