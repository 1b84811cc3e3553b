import Verif.Model.Ident
/-
  jinja-lsp-queries/src/search/objects.rs
-/

namespace JinjaLsp

/-- objects.rs:7-14 `JinjaObject`. -/
structure JinjaObject where
  name : Str
  location : Point × Point
  isFilter : Bool
  isTest : Bool
  fields : List (Str × (Point × Point))
  captureFirst : Bool
deriving DecidableEq, Repr

/-- objects.rs:17-26 `JinjaObject::new`. -/
def JinjaObject.new (name : Str) (start stop : Point) (isFilter isTest : Bool) : JinjaObject :=
  ⟨name, (start, stop), isFilter, isTest, [], false⟩

/-- objects.rs:32-35 `last_field_end`. -/
def JinjaObject.lastFieldEnd (o : JinjaObject) : Point :=
  match o.fields.getLast? with
  | some f => f.2.2
  | none => o.location.2

/-- objects.rs:37-41 `full_range`. -/
def JinjaObject.fullRange (o : JinjaObject) : Range := toRange (o.location.1, o.lastFieldEnd)

/-- search/mod.rs:48-54 `impl From<&JinjaObject> for Identifier`. -/
def Identifier.ofObject (o : JinjaObject) : Identifier :=
  { Identifier.new o.name o.location.1 o.location.2 with fields := o.fields }

/-- objects.rs:331-335 `ExpressionRange`. -/
structure ExprRange where
  beginR : Point × Point
  endR : Point × Point
deriving DecidableEq, Repr

/-- `ExpressionRange::default()` -/
def ExprRange.default : ExprRange := ⟨(Point.zero, Point.zero), (Point.zero, Point.zero)⟩

/-- objects.rs:44-52 `JinjaObjects`. -/
structure JinjaObjects where
  objects : List JinjaObject
  dot : Point × Point
  pipe : Point × Point
  test : Point × Point
  testOn : Bool
  expr : Point × Point
  exprRange : ExprRange
  ident : Point × Point
deriving DecidableEq, Repr

/-- `JinjaObjects::default()` -/
def JinjaObjects.default : JinjaObjects :=
  ⟨[], (Point.zero, Point.zero), (Point.zero, Point.zero), (Point.zero, Point.zero), false,
   (Point.zero, Point.zero), ExprRange.default, (Point.zero, Point.zero)⟩

/-- objects.rs:337-345 `ObjectAction`. -/
inductive ObjectAction where
  | expression | invalid | newField | newFilter | newTest | newObject
deriving DecidableEq, Repr

/-- objects.rs:316-325 `CompletionType`. -/
inductive CompletionType where
  | filter
  | test
  | identifier
  | includedTemplate (name : Str) (range : Range)
  | snippets (range : Range)
  | incompleteIdentifier (name : Str) (range : Range)
  | incompleteFilter (name : Str) (range : Range)
deriving DecidableEq, Repr

/-- objects.rs:327-329 `VALID_IDENTIFIERS`. -/
def validIdentifiers : List Str :=
  [c!"loop", c!"true", c!"false", c!"not", c!"as", c!"module", c!"super", c!"url_for"]

namespace JinjaObjects

/-- objects.rs:230-234 `full_range`. -/
def fullRange (s : JinjaObjects) : Range :=
  match s.objects.getLast? with
  | some o => o.fullRange
  | none => Range.zero

/-- objects.rs:212-216 `is_hover`. -/
def isHover (s : JinjaObjects) (p : Point) : Bool :=
  (decide (s.ident.1 ≤ p) && decide (p ≤ s.ident.2)) || toRange2 s.fullRange p

/-- objects.rs:218-220 `is_filter`. -/
def isFilter (s : JinjaObjects) : Bool := decide (s.pipe.2 = s.ident.1)

/-- objects.rs:222-224 `get_last_id`. -/
def getLastId (s : JinjaObjects) : Option JinjaObject := s.objects.getLast?

/-- objects.rs:186-188 `in_pipe`. -/
def inPipe (s : JinjaObjects) (p : Point) : Bool := decide (s.pipe.1 ≤ p) && decide (p ≤ s.pipe.2)

/-- objects.rs:190-198 `in_expr`. -/
def inExpr (s : JinjaObjects) (p : Point) : Bool :=
  let inE := decide (s.expr.1 ≤ p) && decide (p < s.expr.2)
  let afterIdent := decide (s.ident.1 < p)
  let noIdent := decide (s.exprRange.beginR.2 = s.exprRange.endR.1)
  if !inE then false else (inE && afterIdent) || noIdent

/-- objects.rs:200-202 `should_autoclose`. -/
def shouldAutoclose (s : JinjaObjects) : Bool := decide (s.exprRange.endR.1 = s.exprRange.endR.2)

/-- objects.rs:204-210 `is_ident`. -/
def isIdent (s : JinjaObjects) (p : Point) : Option Str :=
  if s.ident.1 ≤ p ∧ p ≤ s.ident.2 then s.objects.getLast?.map (·.name) else none

/-- objects.rs:236-238 `is_test`. -/
def isTest (s : JinjaObjects) (p : Point) : Bool :=
  s.testOn && decide (s.test.2 ≤ p) && decide (p.row = s.test.2.row)

/-- objects.rs:118-128 and 133-147: a new object unless the name is reserved -/
def pushObject (s : JinjaObjects) (value : Str) (start stop : Point) : JinjaObjects × ObjectAction :=
  if value ∈ validIdentifiers then (s, .invalid)
  else
    let s1 := { s with ident := (start, stop) }
    let isTest := s1.testOn
    let isFilter := s1.isHover start && s1.isFilter
    ({ s1 with objects := s1.objects ++ [JinjaObject.new value start stop isFilter isTest]
               testOn := false }, .newObject)

/-- objects.rs:104-151 `build_object`. -/
def buildObject (s : JinjaObjects) (c : Capture) : JinjaObjects × ObjectAction :=
  match c.text with
  | none => (s, .invalid)
  | some value =>
    if c.start.row = s.dot.2.row ∧ c.start.column = s.dot.2.column then
      match s.objects.getLast? with
      | some last =>
        ({ s with objects := s.objects.dropLast ++
                    [{ last with fields := last.fields ++ [(value, (c.start, c.stop))] }]
                  ident := (c.start, c.stop) }, .invalid)
      | none => pushObject s value c.start c.stop
    else pushObject s value c.start c.stop

/-- objects.rs:55-102 `check`; `none` makes `objects_query` stop.  (The state is unchanged in that case.) -/
def check (s : JinjaObjects) (c : Capture) : Option (JinjaObjects × ObjectAction) :=
  match c.name with
  | .error => none
  | .justId => some (s.buildObject c)
  | .dot => some ({ s with dot := (c.start, c.stop) }, .newField)
  | .pipe =>
    match c.text with
    | none => none
    | some content =>
      some (if content.head? = some '|' then { s with pipe := (c.start, c.stop) } else s, .newFilter)
  | .is => some ({ s with test := (c.start, c.stop), testOn := true }, .newTest)
  | .expr =>
    some ({ s with expr := (c.start, c.stop), exprRange := ⟨c.firstChild, c.lastChild⟩ }, .expression)
  | _ => some (s, .invalid)

/-- objects.rs:153-184 `completion`. -/
def completion (prof : Profile) (s : JinjaObjects) (p : Point) : Res (Option (CompletionType × Bool)) :=
  let autoclose := s.shouldAutoclose
  if s.inPipe p then .ok (some (.filter, autoclose))
  else if s.inExpr p then
    if p = s.exprRange.beginR.2 ∧ p = s.exprRange.endR.1 then .ok (some (.identifier, autoclose))
    else if s.ident.2 < p then .ok (some (.identifier, autoclose))
    else
      match s.isIdent p with
      | some identValue =>
        match completionStart prof p (Identifier.new identValue s.ident.1 s.ident.2) with
        | .error e => .error e
        | .ok none => .ok none
        | .ok (some start) => .ok (some (.incompleteIdentifier start s.fullRange, autoclose))
      | none => .ok (some (.identifier, autoclose))
  else if s.isTest p then .ok (some (.test, false))
  else .ok none

end JinjaObjects

/-- The loop variables of `objects_query` (objects.rs:249-258). -/
structure ObjLoop where
  objects : JinjaObjects
  continued : Bool
  myId : Nat
  myExpr : (Point × Point) × ExprRange
deriving DecidableEq, Repr

/-- objects.rs:255-258: initial loop variables -/
def ObjLoop.init : ObjLoop :=
  ⟨JinjaObjects.default, false, 0, ((Point.zero, Point.zero), ExprRange.default)⟩

/-- objects.rs:295-306: final adjustment when the tokens after the cursor end the object under the cursor -/
def objectsFinish (prof : Profile) (o : JinjaObjects) (myId : Nat)
    (myExpr : (Point × Point) × ExprRange) : Res JinjaObjects :=
  let o1 := match o.objects[myId]? with
    | some obj => { o with ident := obj.location
                           objects := o.objects.set myId { obj with captureFirst := true } }
    | none => o
  match usub prof o1.objects.length 1 with
  | .error e => .error e
  | .ok l =>
    if myId ≠ l then
      .ok { o1 with objects := o1.objects.dropLast, expr := myExpr.1, exprRange := myExpr.2 }
    else .ok o1

/-- objects.rs:260-312: the loop over all captures (`break 'loop1` returns, `continue` goes on; the two
nested loops traverse the flattened list of captures). -/
def objectsLoop (prof : Profile) (trigger : Point) (all : Bool) : ObjLoop → List Capture → Res JinjaObjects
  | st, [] => .ok st.objects
  | st, c :: cs =>
    if all || decide (c.start ≤ trigger) then
      match st.objects.check c with
      | none => .ok st.objects
      | some (o, _) => objectsLoop prof trigger all { st with objects := o } cs
    else if decide (trigger ≤ c.start) then
      if st.objects.isFilter || c.name = .expr then .ok st.objects
      else if !st.continued then
        if st.objects.isHover trigger then
          match usub prof st.objects.objects.length 1 with
          | .error e => .error e
          | .ok myId =>
            objectsLoop prof trigger all
              { st with continued := true, myId := myId
                        myExpr := (st.objects.expr, st.objects.exprRange) } cs
        else .ok st.objects
      else
        match st.objects.check c with
        | none => .ok st.objects
        | some (o, act) =>
          match act with
          | .expression | .newObject | .invalid => objectsFinish prof o st.myId st.myExpr
          | _ => objectsLoop prof trigger all { st with objects := o } cs
    else objectsLoop prof trigger all st cs

/-- objects.rs:241-314 `objects_query`. -/
def objectsQuery (env : Env) (tree : Tree) (trigger : Point) (text : Str) (all : Bool) : Res JinjaObjects :=
  objectsLoop env.profile trigger all ObjLoop.init (env.queryMatches .jinjaObjects tree text).flatten

end JinjaLsp
