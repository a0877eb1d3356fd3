#!/usr/bin/env python3
"""Runs the Lean model on the inputs of the repository's own tests and compares with what these tests expect.

This is a check of the model (does it say what the code does?), not a proof. Nothing in the theorems depends on it.
The cases are taken from /repo by regular expressions; the Lean program is generated outside of /verif.
Usage: python3 tools/conformance.py   (after `lake build` in lean/)
"""
import json, os, re, subprocess, sys

R = '/repo/'
OUT = '/tmp/conformance'
os.makedirs(OUT, exist_ok=True)
read = lambda p: open(R + p, encoding='utf8').read()


def unescape(s):
    """A Rust string literal without the quotes."""
    out, i = '', 0
    simple = {'n': '\n', 't': '\t', 'r': '\r', '"': '"', "'": "'", '\\': '\\', '0': '\0'}
    while i < len(s):
        if s[i] == '\\' and i + 1 < len(s):
            if s[i + 1] == '\n':
                i += 2
                while i < len(s) and s[i] in ' \n\t':
                    i += 1
                continue
            out += simple[s[i + 1]]
            i += 2
        else:
            out += s[i]
            i += 1
    return out


LIT = r'"((?:[^"\\]|\\.)*)"'
cases = []

# 1. .smithy files and the line form expected of them
for n in ['motd', 'smithy-api-mqtt', 'weather', 'waiters', 'prelude-traits']:
    exp = read(f'atelier-smithy/tests/good/{n}.lines').split('\n')
    exp = [e.replace('\\n', '\n').replace('\\t', '\t').replace('\\"', '"') for e in exp]
    cases.append(dict(kind='idl', name=n, text=read(f'atelier-smithy/tests/good/{n}.smithy'), expected=exp))

# 2. the parts: small texts in the IDL and in JSON, with the lines expected of them
parts = read('atelier-test/src/parts.rs')
consts = {m[0]: [unescape(x) for x in re.findall(LIT, m[1], re.S)]
          for m in re.findall(r'const (\w+): &\[&str\] = &\[(.*?)\];', parts, re.S)}
lines_of = {}
for m in re.finditer(r'pub fn (\w+)\(\) -> TestCaseModel \{(.*?)\n\}', parts, re.S):
    c = re.search(r'expected_lines: (\w+)\.to_vec', m[2])
    if c:
        lines_of[m[1]] = consts[c[1]]
for path, kind in [('atelier-smithy/tests/smithy_simple_parse_tests.rs', 'idl'),
                   ('atelier-json/tests/json_simple_parse_tests.rs', 'json')]:
    for m in re.finditer(r'fn (\w+)\(\) \{\s*model_test\(\s*(?:r##"(.*?)"##|' + LIT + r'),\s*([\w:]+)\(\)', read(path), re.S):
        text = m[2] if m[2] is not None else unescape(m[3])
        p = re.match(r'model_part::(\w+)', m[4])
        cases.append(dict(kind=kind, name='simple ' + m[1], text=text, expected=lines_of[p[1]] if p else []))

# 3. JSON documents that are written as they were read; the JSON files that must be read
for path in ['json_model_to_ast', 'json_regression_tests']:
    t = read(f'atelier-json/tests/{path}.rs')
    for m in re.finditer(r'fn (\w+)\(\) \{\s*parse_and_write_json\(\s*r#"(.*?)"#', t, re.S):
        cases.append(dict(kind='jsonBack', name=m[1], text=m[2]))
for n in ['aws.api', 'aws.apigateway', 'aws.auth', 'aws.iam', 'aws.protocols']:
    cases.append(dict(kind='jsonOk', name=n, text=read(f'atelier-json/tests/good/{n}.json')))

# 4. selectors: texts that must (not) be read; texts that the builders must write
t = read('atelier-smithy/tests/selector_tests.rs')
for m in re.finditer(r'selector_eq\(\s*(?:' + LIT + r'|r#"(.*?)"#)', t, re.S):
    cases.append(dict(kind='selOk', name='selector', text=m[2] if m[1] is None else unescape(m[1])))
for m in re.finditer(r'selector_fail\(\s*' + LIT, t, re.S):
    cases.append(dict(kind='selBad', name='selector', text=unescape(m[1])))
t = re.sub(r'/\*.*?\*/', '', read('atelier-core/tests/core_selector.rs').replace('(*)', '(@any)'), flags=re.S).replace('(@any)', '(*)')
for m in re.finditer(r'fn (\w+)\(\) \{\s*selector_eq\((.*?)\n\}', t, re.S):
    l = re.findall(r'r#+"(.*?)"#+|' + LIT, m[2], re.S)[-1]
    cases.append(dict(kind='selBack', name=m[1], text=l[0] or unescape(l[1])))

# 5. names
t = read('atelier-core/tests/core_identity_types.rs')
for c, k in [('ID', 'ident'), ('NAMESPACE', 'namespace'), ('SHAPE_ID', 'shapeId')]:
    for g in ['GOOD', 'BAD']:
        for x in re.findall(LIT, re.search(rf'const {c}_{g}: &\[&str\] = &\[(.*?)\];', t, re.S)[1]):
            cases.append(dict(kind=k, name=x, text=x, good=g == 'GOOD'))

# 6. the resolution of names, from the IDL in the comment of the test; the validators and linters
t = read('atelier-core/tests/core_resolver.rs')
cases.append(dict(kind='idl', name='core_resolver', text=re.search(r'```smithy\n(.*?)```', t, re.S)[1],
                  expected=[unescape(x) for x in re.findall(LIT, re.search(r'EXPECTED_LINES.*?\[\n(.*?)\];', t, re.S)[1])]))
t = read('atelier-core/tests/core_validators.rs')
exp = [[unescape(x) for x in re.findall(LIT, e, re.S)] for e in re.findall(r'let expected = \[(.*?)\];', t, re.S)]
cases.append(dict(kind='types', name='correct types', expected=exp[0], text='''namespace smithy.example
use foo.baz#Bar
@documentation
structure MyStructure { a: MyString, b: smithy.example#MyString, d: foo.baz#Bar, e: foo.baz#MyString, f: String, g: MyBoolean }
string MyString
boolean MyBoolean'''))
cases.append(dict(kind='unresolved', name='unresolved', expected=exp[1],
                  text='namespace smithy.example\nuse foo.baz#Bar\nboolean MyBoolean'))
t = read('atelier-core/tests/core_linters.rs')
exp = [[unescape(x) for x in re.findall(LIT, e, re.S)] for e in re.findall(r'let expected = \[(.*?)\];', t, re.S)]
idl = '''namespace smithy.example
use amazon.fashion#BadTraitName
string shouldBeUpper
string MyString
string ThingAsJSON
list TheBlacklist { member: String }
@BadTraitName
structure MyStructure { okName: String, BadName: MyString, thing: ThingAsJSON, checkAgainst: TheBlacklist, killMasterNode: Boolean }'''
cases.append(dict(kind='naming', name='naming', expected=exp[0], text=idl))
cases.append(dict(kind='terms', name='terms', expected=exp[1], text=idl))

# 7. directories given to the assembler
def tree(p):
    return {n: read(p + '/' + n) for n in sorted(os.listdir(R + p))}


exp = read('atelier-assembler/tests/resolver_cases/animals.lines').split('\n')
cases.append(dict(kind='assemble', name='resolver_cases', tree=tree('atelier-assembler/tests/resolver_cases'), expected=exp))
cases.append(dict(kind='assembleOk', name='good', tree=tree('atelier-assembler/tests/good')))
cases.append(dict(kind='assemble', name='empty', tree=tree('atelier-assembler/tests/empty'), expected=[]))

# 9. the GraphML given in the documentation of the writer, up to the order of shapes and the numbers of edges
t = re.search(r'```xml\n(.*?)```', read('atelier-describe/src/graphml/writer.rs'), re.S)[1]
noid = lambda s: re.sub(r'edge id="e\d+"', 'edge', s)
cases.append(dict(kind='graphml', name='motd', text=read('atelier-smithy/tests/good/motd.smithy'),
                  expected=sorted(noid(t).split('\n'))))

# 8. core_merge_*.rs, with the models given as JSON and merged (written by hand after these tests)
def doc(shapes=None, meta=None):
    d = {'smithy': '1.0'}
    if meta is not None:
        d['metadata'] = meta
    if shapes is not None:
        d['shapes'] = {'example.smithy#S': shapes}
    return json.dumps(d)


def merge(name, a, b, ok, lines=None):
    cases.append(dict(kind='merge', name=name, text=a, other=b, good=ok, lines=lines if lines is not None else -1))


for name, a, b, ok in [('arrays', [101, 102], [201, 202], True), ('string', 'x', 'x', True), ('number', 101, 101, True),
                       ('boolean', True, True, True), ('object', {'bool': True, 'name': 'e'}, {'bool': True, 'name': 'e'}, True),
                       ('types', 'x', False, False), ('strings', 'x', 'y', False), ('numbers', 101, 202, False),
                       ('booleans', True, False, False), ('objects', {'bool': True}, {'bool': False}, False)]:
    merge('metadata ' + name, doc(meta={'name': a}), doc(meta={'name': b}), ok)
    ta = {'type': 'string', 'traits': {'smithy.api#since': a}}
    tb = {'type': 'string', 'traits': {'smithy.api#since': b}}
    merge('traits ' + name, doc(ta), doc(tb), ok)
dd = lambda s: {'type': 'string', 'traits': {'smithy.api#documentation': s}}
pre = lambda n: {'target': 'smithy.api#' + n}
merge('simple', doc({'type': 'string'}), doc({'type': 'string'}), True)
merge('simple traits', doc(dd('a')), doc(dd('a')), True)
merge('simple left', doc(dd('a')), doc({'type': 'string'}), True, 2)
merge('simple right', doc({'type': 'string'}), doc(dd('a')), True, 2)
merge('simple kinds', doc({'type': 'string'}), doc({'type': 'integer'}), False)
merge('simple docs', doc(dd('a')), doc(dd('b')), False)
for k in ['list', 'set']:
    for n, ok in [('String', True), ('Integer', False)]:
        merge(k, doc({'type': k, 'member': pre('String')}), doc({'type': k, 'member': pre(n)}), ok)
for n, ok in [('String', True), ('Integer', False)]:
    merge('map', doc({'type': 'map', 'key': pre('String'), 'value': pre('String')}),
          doc({'type': 'map', 'key': pre(n), 'value': pre(n)}), ok)
for k in ['structure', 'union']:
    for n, ok in [('Integer', True), ('BigDecimal', False)]:
        merge(k, doc({'type': k, 'members': {'name': pre('String'), 'age': pre('Integer')}}),
              doc({'type': k, 'members': {'name': pre('String'), 'age': pre(n)}}), ok)


def real(boxed, type, tr):
    return doc({'type': type, 'traits': {'smithy.api#' + x: {} for x in [tr] + (['box'] if boxed else [])}})


R_ = lambda b: real(b, 'string', 'sensitive')
U_ = lambda b: real(b, 'apply', 'private')
for a, b, n in [(U_(False), U_(False), 1), (U_(False), U_(True), 2), (U_(False), R_(False), 2), (U_(False), R_(True), 3),
                (R_(False), U_(False), 2), (R_(False), U_(True), 3)]:
    merge('unresolved', a, b, True, n + 1)

json.dump(cases, open(OUT + '/cases.json', 'w'))

open(OUT + '/Conformance.lean', 'w').write(r'''
import Lean.Data.Json
import Verif.Idl
import Verif.Lines
import Verif.Json
import Verif.Selector
import Verif.SelectorParser
import Verif.Actions
import Verif.Assembler
import Verif.GraphML
open Verif

def fmt : Fmt := ⟨fun f => (toString (Float.ofBits f.bits)).toList, fun s => (reprStr (String.ofList s)).toList⟩

def number (m : Int) (e : Nat) : Float := Float.ofInt m / (10.0 ^ Float.ofNat e)

def flt (s : Str) : Option F64 :=
  match Lean.Json.parse (String.ofList s) with
  | .ok (.num n) => some ⟨(number n.mantissa n.exponent).toBits⟩
  | _ => none

instance : Inhabited Verif.Json := ⟨.null⟩

partial def conv : Lean.Json → Verif.Json
  | .null => .null
  | .bool b => .bool b
  | .num n => if n.exponent = 0 then (if n.mantissa < 0 then .number (.negInt n.mantissa) else .number (.posInt n.mantissa.toNat))
      else .number (.float ⟨(number n.mantissa n.exponent).toBits⟩)
  | .str s => .string s.toList
  | .arr a => .array (a.toList.map conv)
  | .obj o => .object (o.toList.map fun (k, v) => (k.toList, conv v))

partial def back : Verif.Json → Lean.Json
  | .null => .null
  | .bool b => .bool b
  | .number (.posInt n) => .num n
  | .number (.negInt n) => .num n
  | .number (.float x) => .str s!"float {x.bits}"
  | .string s => .str (String.ofList s)
  | .array vs => .arr (vs.map back).toArray
  | .object vs => Lean.Json.mkObj (vs.map fun (k, v) => (String.ofList k, back v))

/-- heck's words: at `_`, at a lower case letter followed by an upper case one, before the last of several upper case
letters if a lower case one follows. -/
def wordsOf (s : String) : List String :=
  let rec go (cs : List Char) (w : List Char) (acc : List String) : List String :=
    match cs with
    | [] => (String.ofList w.reverse :: acc).reverse
    | c :: rest =>
      match w with
      | p :: _ =>
        let next := rest.head?
        if (p.isLower && c.isUpper) || (p.isUpper && c.isUpper && (next.map Char.isLower).getD false) then
          go rest [c] (String.ofList w.reverse :: acc)
        else go rest (c :: w) acc
      | [] => go rest [c] acc
  ((s.splitOn "_").flatMap fun p => go p.toList [] []).filter (· ≠ "")

def heck : Heck where
  camel s := (String.join ((wordsOf (String.ofList s)).map fun w => w.toLower.capitalize)).toList
  mixed s := match wordsOf (String.ofList s) with
    | [] => []
    | w :: ws => (w.toLower ++ String.join (ws.map fun w => w.toLower.capitalize)).toList
  snake s := (String.intercalate "_" ((wordsOf (String.ofList s)).map String.toLower)).toList

def ask (j : Lean.Json) (k : String) : String := (j.getObjValAs? String k).toOption.getD ""
def askList (j : Lean.Json) : List String := (j.getObjValAs? (List String) "expected").toOption.getD []

def compareLines (got : List Str) (exp : List String) : Option String :=
  let g := got.map String.ofList
  if g == exp then none else
    some s!"extra {repr (g.filter (!exp.contains ·))}, missing {repr (exp.filter (!g.contains ·))}"

def readIdlModel (s : String) : Except Err Model := parseModel flt id s.toList
def readJsonModel (s : String) : Except String Model :=
  match Lean.Json.parse s with
  | .error e => .error e
  | .ok j => match JsonReader.model (conv j) with | .ok m => .ok m | .error _ => .error "refused"

def messages (is : List Issue) : List String := is.map fun i => String.ofList i.message
def sameSet (a b : List String) : Option String :=
  if a.length = b.length ∧ b.all a.contains then none else some s!"got {a}, expected {b}"

def assembled (j : Lean.Json) : Except Err Model :=
  let entries : List (Str × Node String) := match j.getObjVal? "tree" with
    | .ok (.obj o) => o.toList.map fun (k, v) => (k.toList, .file (some (v.getStr?.toOption.getD "")))
    | _ => []
  let json : String → Except Err Model := fun s => match readJsonModel s with | .ok m => .ok m | .error _ => .error .panic
  let a : Assembler String := ⟨Registry.default json readIdlModel, []⟩
  (a.push [%s"top"]).tryFrom fun p => if p = [%s"top"] then .dir (some entries) else .other

def check (j : Lean.Json) : Option String :=
  let text := ask j "text"
  let onIdl (f : Model → Option String) : Option String :=
    match readIdlModel text with | .error _ => some "refused" | .ok m => f m
  match ask j "kind" with
  | "idl" => onIdl fun m => compareLines (lineForm fmt m) (askList j)
  | "json" => match readJsonModel text with | .error e => some e | .ok m => compareLines (lineForm fmt m) (askList j)
  | "jsonOk" => match readJsonModel text with | .error e => some e | .ok _ => none
  | "jsonBack" => match readJsonModel text with
    | .error e => some e
    | .ok m => match JsonWriter.modelToJson m with
      | .error _ => some "not written"
      | .ok v => match Lean.Json.parse text with
        | .error e => some e
        | .ok t => if (back v).compress == t.compress then none else some (back v).compress
  | "selOk" => match parseSelector flt text.toList with | .ok _ => none | .error _ => some s!"refused {text}"
  | "selBad" => match parseSelector flt text.toList with | .ok _ => some s!"accepted {text}" | .error _ => none
  | "selBack" => match parseSelector flt text.toList with
    | .error _ => some s!"refused {text}"
    | .ok s => if String.ofList (s.display fmt) = text then none else some s!"{String.ofList (s.display fmt)} for {text}"
  | "ident" => if isIdent text.toList = (j.getObjValAs? Bool "good").toOption.getD false then none else some text
  | "namespace" => if isNamespace text.toList = (j.getObjValAs? Bool "good").toOption.getD false then none else some text
  | "shapeId" => if ShapeID.isValid text.toList = (j.getObjValAs? Bool "good").toOption.getD false then none else some text
  | "graphml" => onIdl fun m => match GraphML.write true m with
    | .error _ => some "failed"
    | .ok s =>
      let strip (l : String) : String := match l.splitOn "edge id=\"e" with
        | [a, b] => a ++ "edge" ++ String.ofList ((b.toList.dropWhile (· ≠ '"')).drop 1)
        | _ => l
      let got := (((String.ofList s).splitOn "\n").map strip).mergeSort (fun a b => decide (a ≤ b))
      let exp := (askList j).mergeSort (fun a b => decide (a ≤ b))
      if got == exp then none else some s!"extra {repr (got.filter (!exp.contains ·))}, missing {repr (exp.filter (!got.contains ·))}"
  | "types" => onIdl fun m => sameSet (messages (TypeRefs.validate m)) (askList j)
  | "unresolved" => onIdl fun m => sameSet (messages (unresolvedValidate m)) (askList j)
  | "naming" => onIdl fun m => sameSet (messages (Naming.check heck m)) (askList j)
  | "terms" => onIdl fun m => match (runActions m false [unwelcomeTerms heck]).2 with
    | .ok is => sameSet (messages is) (askList j)
    | .error _ => some "failed"
  | "assemble" => match assembled j with | .error _ => some "refused" | .ok m => compareLines (lineForm fmt m) (askList j)
  | "assembleOk" => match assembled j with | .error _ => some "refused" | .ok m => if m.shapes.isEmpty then some "empty" else none
  | "merge" => match readJsonModel text, readJsonModel (ask j "other") with
    | .ok a, .ok b =>
      let good := (j.getObjValAs? Bool "good").toOption.getD false
      match a.merge b with
      | (_, .error _) => if good then some "refused" else none
      | (m, .ok ()) =>
        let n := (lineForm fmt m).length
        let want := (j.getObjValAs? Int "lines").toOption.getD (-1)
        if !good then some "accepted" else if want = -1 ∨ want = n then none else some s!"{n} lines"
    | _, _ => some "not read"
  | k => some s!"unknown kind {k}"

def main : IO UInt32 := do
  let .ok (.arr cs) := Lean.Json.parse (← IO.FS.readFile "''' + OUT + r'''/cases.json") | throw (IO.userError "cases")
  let mut bad := 0
  for c in cs do
    match check c with
    | none => pure ()
    | some e => bad := bad + 1; IO.println s!"{ask c "kind"} {ask c "name"}: {e}"
  IO.println s!"{cs.size} cases, {bad} different"
  return if bad = 0 then 0 else 1
''')
here = os.path.join(os.path.dirname(os.path.abspath(__file__)), '..', 'lean')
sys.exit(subprocess.run(['lake', 'env', 'lean', '--run', OUT + '/Conformance.lean'], cwd=here).returncode)
