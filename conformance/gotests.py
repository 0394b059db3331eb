"""Reads the Go unit tests of src/parser and src/generator (as text) and writes them as a Lean script that runs the same
calls on the model. Usage: gotests.py <folder of the repository> <output .lean>"""
import re, sys, os, glob

repo, out = sys.argv[1], sys.argv[2]

class Skip(Exception): pass
class Sym:
    def __init__(s, e): s.e = e
class Struct:
    def __init__(s, n, f): s.n, s.f = n, f
class Map:
    def __init__(s, d): s.d = d
class Tokenizer: pass
class Generator: pass
class Ret:
    def __init__(s, v): s.v = v

TOK = re.compile(r'''(?P<ws>[ \t\r]+)|(?P<com>//[^\n]*|/\*.*?\*/)|(?P<nl>\n)|(?P<raw>`[^`]*`)|(?P<str>"(?:\\.|[^"\\])*")|(?P<rune>'(?:\\.|[^'\\])+')|(?P<num>\d+(?:\.\d+)?)|(?P<id>[A-Za-z_]\w*)|(?P<op>:=|==|!=|<=|>=|&&|\|\||\+\+|\.\.\.|[-+*/%&|<>=!(){}\[\],;:.])''', re.S)

def unq(s):
    s = s[1:-1]
    esc = {'n': '\n', 't': '\t', '"': '"', '\\': '\\', 'r': '\r', "'": "'"}
    def r(m):
        c = m.group(1)
        if c[0] in 'ux': return chr(int(c[1:], 16))
        return esc[c]
    return re.sub(r'\\(u[0-9a-fA-F]{4}|x[0-9a-fA-F]{2}|.)', r, s)

def lex(src):
    toks, i = [], 0
    while i < len(src):
        m = TOK.match(src, i)
        if not m: raise Skip('lex ' + src[i:i+20])
        k, v = m.lastgroup, m.group()
        if k == 'nl':
            if toks and (toks[-1][0] in ('raw', 'str', 'rune', 'num', 'id') or toks[-1][1] in (')', ']', '}', '++')): toks.append(('op', ';', 0))
        elif k == 'str': toks.append(('str', unq(v), 0))
        elif k == 'raw': toks.append(('raw', v[1:-1].replace('\r', ''), 0))
        elif k not in ('ws', 'com'): toks.append((k, v, 0))
        i = m.end()
    return toks

CONST = {}
for f in glob.glob(repo + '/src/parser/*.go') + glob.glob(repo + '/src/generator/*.go'):
    for m in re.finditer(r'^\s*(?:const )?([A-Z][A-Z_]+)\s*=\s*("(?:\\.|[^"])*"|`[^`]*`)\s*$', open(f).read(), re.M):
        CONST[m.group(1)] = unq(m.group(2)) if m.group(2)[0] == '"' else m.group(2)[1:-1]

CONST.update(semiHeadingDepth=10, imageNonInlineParameters=['mini', 'thumb'], defaultReferenceGroup='__wiki2book_ungrouped_references_group__')
# ---- terms of Lean ------------------------------------------------------------------------------------------------
def ls(s):
    o = ''
    for c in s:
        if c == '"': o += '\\"'
        elif c == '\\': o += '\\\\'
        elif c == '\n': o += '\\n'
        elif c == '\t': o += '\\t'
        else: o += c
    return '(s "' + o + '")'
def term(v):
    if isinstance(v, Sym): return v.e
    if isinstance(v, bool): return 'true' if v else 'false'
    if isinstance(v, str): return ls(v)
    if isinstance(v, int): return '(%d : Int)' % v
    if isinstance(v, list): return '[' + ', '.join(term(x) for x in v) + ']'
    if isinstance(v, Struct): return struct(v)
    raise Skip('term %r' % (v,))
ITEM = {'NORMAL_ITEM': '.normal', 'DESCRIPTION_ITEM': '.descriptionItem', 'DESCRIPTION_HEAD': '.descriptionHead'}
KIND = {'UnorderedListToken': '.unordered', 'OrderedListToken': '.ordered', 'DescriptionListToken': '.description'}
def nat(v): return '(%d : Nat)' % v
def content(v): return v.f.get('Content', '') if isinstance(v, Struct) else ''
def listtok(v): return '(ListTok.mk %s [%s])' % (KIND[v.n], ', '.join(item(x) for x in v.f.get('Items', [])))
def item(v): return '(ItemTok.mk %s %s [%s])' % (ITEM[v.f.get('Type', 'NORMAL_ITEM')], term(v.f.get('Content', '')), ', '.join(listtok(x) for x in v.f.get('SubLists', [])))
def attrs(v): return term(v.f.get('Attributes', [])) if isinstance(v, Struct) else '[]'
def col(v): return '(TableCol.mk (%s : List Str) %s %s)' % (attrs(v.f.get('Attributes')), term(v.f.get('Content', '')), term(v.f.get('IsHeading', False)))
def row(v): return '[' + ', '.join(col(c) for c in v.f.get('Columns', [])) + ']'
def struct(v):
    n, f = v.n, v.f
    g = lambda k: term(f.get(k, ''))
    if n == 'HeadingToken': return '(Token.heading %s %s)' % (g('Content'), nat(f.get('Depth', 0)))
    if n == 'InternalLinkToken': return '(Token.internalLink %s %s)' % (g('ArticleName'), g('LinkText'))
    if n == 'ExternalLinkToken': return '(Token.externalLink %s %s)' % (g('URL'), g('LinkText'))
    if n == 'StringToken': return '(Token.string %s)' % g('String')
    if n == 'TableToken': return '(Token.table [%s] %s)' % (', '.join(row(r) for r in f.get('Rows', [])), term(content(f.get('Caption'))))
    if n in KIND: return '(Token.list %s)' % listtok(v)
    if n == 'ImageToken': return '(Token.image %s %s (%d) (%d))' % (g('Filename'), term(content(f.get('Caption'))), f.get('SizeX', 0), f.get('SizeY', 0))
    if n == 'InlineImageToken': return '(Token.inlineImage %s (%d) (%d))' % (g('Filename'), f.get('SizeX', 0), f.get('SizeY', 0))
    if n == 'RefDefinitionToken': return '(Token.refDefinition %d %s)' % (f.get('Index', 0), g('Content'))
    if n == 'RefUsageToken': return '(Token.refUsage %d)' % f.get('Index', 0)
    if n == 'MathToken': return '(Token.math %s)' % g('Content')
    if n == 'NowikiToken': return '(Token.nowiki %s)' % g('Content')
    if n == 'TableRowToken': return '(%s : List TableCol)' % row(v)
    if n == 'TableColAttributeToken': return '(%s : List Str)' % attrs(v)
    raise Skip('struct ' + n)

# ---- the functions of the tokenizer: Lean terms in TokM, the number of results ------------------------------------
FN = {
 'parseHeadings': ('parseHeadings again {0}', 1), 'parseLists': ('parseLists again fuel {0}', 1),
 'parseImages': ('parseImages env again fuel {0}', 1), 'parseGalleries': ('parseGalleries env {0}', 1),
 'parseImageMaps': ('parseImageMaps env {0}', 1), 'escapeImages': ('escapeImages env {0}', 1),
 'parseBoldAndItalic': ('parseBoldAndItalic fuel {0}', 1), 'parseReferences': ('parseReferences again fuel {0}', 1),
 'parseTables': ('parseTables again fuel {0}', 1), 'parseInternalLinks': ('parseInternalLinks env again {0}', 1),
 'parseExternalLinks': ('parseExternalLinks env again {0}', 1), 'parseNowiki': ('parseNowiki fuel {0}', 1),
 'parseMath': ('parseMath {0}', 1), 'parseParagraphs': ('pure (parseParagraphs {0})', 1),
 'tokenizeContent': ('tokenizeContent env fuel {1}', 1),
 'removeComments': ('pure (removeComments {0})', 1), 'removeEmptySections': ('pure (removeEmptySections {0})', 1),
 'removeEmptyListEntries': ('pure (removeEmptyListEntries {0})', 1),
 'removeUnwantedWikitext': ('pure (removeUnwantedWikitext {0})', 1),
 'removeUnwantedInternalLinks': ('TokM.lift (removeUnwantedInternalLinks env {0})', 1),
 'handleUnwantedAndTrailingTemplates': ('pure (handleUnwantedAndTrailingTemplates env {0})', 1),
 'headingDepth': ('pure (headingDepth {0})', 1),
 'clean': ('liftO (cleanText env fuel {0})', 'err'),
 'hackGermanRailwayTemplates': ('liftO (railwayLoop fuel {0} {1})', 'err'),
 'getNameAttribute': ('TokM.lift (getAttribute {0} (s "name"))', 1),
 'getGroupOrDefault': ('TokM.lift (getGroupOrDefault {0})', 1),
 'getListTokenKey': ('withByte {0} fun c => pure (listTokenKey c)', 1),
 'belongsToListPrefix': ('withByte {1} fun c => pure (belongsTo {0} c)', 1),
 'tokenizeList': ('withByte {2} fun c => do let r ← tokenizeList again fuel (({0} : List Str).drop {1}) c; pure (Token.list r.1, r.2.1, (r.2.2 + {1} : Nat))', 3),
 'tokenizeTableEntry': ('tableEntry again {0}', 2),
 'tokenizeTableRow': ('do let r ← tableRow again fuel (({0} : List Str).drop {1}); pure (r.1, (({0} : List Str).length - r.2.length - 1 : Nat))', 2),
 'FindCorrespondingCloseToken': ('pure (closeIndex (findClose {0} {1} {2} {3}))', 1),
 'FindCorrespondingCloseTokenIgnoreCase': ('pure (closeIndex (findCloseIgnoreCase {0} {1} {2} {3}))', 1),
 'evaluateTemplates': ('liftO (onlyText (evaluateTemplates templates (fun _ l => l) fuel {0}))', 'err'),
}
CFG = {'IgnoredTemplates': 'ignoredTemplates', 'TrailingTemplates': 'trailingTemplates', 'IgnoredImageParams': 'ignoredImageParams',
       'IgnoredMediaTypes': 'ignoredMediaTypes', 'FilePrefixe': 'filePrefixe', 'AllowedLinkPrefixes': 'allowedLinkPrefixes',
       'CategoryPrefixes': 'categoryPrefixes'}
cfgstate = {}

class Test:
    def __init__(s, toks, glob):
        s.t, s.i, s.vars, s.lines, s.n, s.asserts = toks, 0, dict(glob), [], 0, 0
    # parsing helpers
    def peek(s, k=0): return s.t[s.i + k][1] if s.i + k < len(s.t) and s.t[s.i + k][0] not in ('str', 'raw') else None
    def kind(s): return s.t[s.i][0]
    def next(s): s.i += 1; return s.t[s.i - 1]
    def eat(s, v):
        if s.peek() == v: s.i += 1; return True
        return False
    def need(s, v):
        if not s.eat(v): raise Skip('expected %s, got %r' % (v, s.t[s.i:s.i+4]))
    def block(s):
        s.need('{')
        while not s.eat('}'):
            if s.eat(';'): continue
            s.stmt()
    def skipblock(s):
        d = 0
        while True:
            v = s.peek(); k = s.kind(); s.i += 1
            if k == 'op' and v == '{': d += 1
            if k == 'op' and v == '}':
                d -= 1
                if d == 0: return
    def stmt(s):
        if s.peek() == 'var':
            s.next(); name = s.next()[1]; ty = s.next()[1]
            s.vars[name] = {'string': '', 'int': 0}.get(ty)
            if s.eat('='): s.vars[name] = s.expr()
            return
        if s.peek() == 'for':
            s.next(); s.next(); s.need(','); x = s.next()[1]; s.need(':='); s.need('range'); l = s.expr(nolit=True)
            if not isinstance(l, list): raise Skip('range')
            start = s.i
            for v in l:
                s.i = start; s.vars[x] = v; s.block()
            if not l: s.skipblock()
            return
        if s.peek() in ('if', 'switch', 'return', 'go', 'defer'): raise Skip('statement ' + s.peek())
        start = s.i
        # targets
        j, depth = s.i, 0
        targets = None
        names = []
        k = s.i
        while k < len(s.t) and s.t[k][0] == 'id':
            nm = s.t[k][1]; k += 1
            while k + 1 < len(s.t) and s.t[k] == ('op', '.', 0) and s.t[k+1][0] == 'id': nm += '.' + s.t[k+1][1]; k += 2
            names.append(nm)
            if s.t[k] == ('op', ',', 0): k += 1; continue
            break
        if k < len(s.t) and s.t[k][0] == 'op' and s.t[k][1] in (':=', '='):
            s.i = k + 1
            v = s.expr()
            if isinstance(v, Ret):
                for n, x in zip(names, v.v): s.assign(n, x)
            else: s.assign(names[0], v)
        else: s.expr()
    def assign(s, n, v):
        if n == '_': return
        if n.startswith('config.Current.'):
            cfgstate[n[len('config.Current.'):]] = v; s.env(); return
        if n.endswith('.EvaluateTemplateFunc'):
            s.lines.append('let templates : TemplateEnv := ⟨sha1hex, fun _ _ => .ok %s⟩' % term(v.f['return'])); return
        if n.endswith('.TokenMap'):
            s.tokens = v; return
        if '.' in n: raise Skip('assign ' + n)
        s.vars[n] = v
    def env(s):
        f = []
        for k, v in cfgstate.items():
            kk = k[0].lower() + k[1:]
            if isinstance(v, list): f.append('(.l .%s %s)' % (CFG.get(k, kk), term(v)))
            elif isinstance(v, str): f.append('(.s .%s %s)' % (kk, term(v)))
            elif v is not None: raise Skip('config ' + k)
        s.lines.append('let env := mkEnv [%s]' % ', '.join(f))
        s.lines.append('let again := tokenizeContent env fuel')
        s.lines.append('let html := mkHtml env.config')
    # expressions
    def expr(s, nolit=False):
        v = s.unary(nolit)
        while s.peek() == '+':
            s.next(); w = s.unary(nolit)
            if isinstance(v, str) and isinstance(w, str) or isinstance(v, int) and isinstance(w, int): v = v + w
            elif isinstance(v, (str, Sym)) and isinstance(w, (str, Sym)): v = Sym('(%s ++ %s)' % (term(v), term(w)))
            else: raise Skip('+')
        return v
    def unary(s, nolit):
        if s.eat('-'): return -s.unary(nolit)
        if s.eat('&'): return s.unary(nolit)
        k, v, _ = s.t[s.i]
        if k in ('str', 'raw'): s.next(); return v
        if k == 'num': s.next(); return int(v) if '.' not in v else float(v)
        if v == '(':
            s.next(); x = s.expr(); s.need(')'); return x
        if v == '[':
            s.next(); s.need(']'); ty = s.typ()
            if s.peek() == '(' and ty == 'byte': raise Skip('bytes')
            return s.elements(ty)
        if v == 'map':
            s.next(); s.need('['); s.typ(); s.need(']'); s.typ()
            s.need('{'); d = {}
            while not s.eat('}'):
                if s.eat(';'): continue
                key = s.expr(); s.need(':'); val = s.expr() if s.peek() != '{' else None
                d[key] = val; s.eat(',')
            return Map(d)
        if v == 'func':
            # the functions of the mocks return the same answer for each template
            j = s.i
            while s.t[j][1] != 'return' or s.t[j][0] != 'id': j += 1
            s.skipblock(); e = s.i
            s.i = j + 1; r = s.expr(); s.i = e
            return Struct('Func', {'return': r})
        if k != 'id': raise Skip('expr %r' % v)
        name = s.next()[1]
        while s.peek() == '.' : s.next(); name += '.' + s.next()[1]
        if s.peek() == '(':
            s.next(); args = []
            while not s.eat(')'):
                if s.eat(';'): continue
                args.append(s.expr()); s.eat(',')
            r = s.call(name, args)
        elif s.peek() == '{' and not nolit and (name.split('.')[-1].endswith('Token') or name.endswith('Generator')):
            r = s.literal(name.split('.')[-1])
        else: r = s.var(name)
        while s.peek() == '[':
            s.next(); ix = s.expr(); s.need(']')
            r = Sym('((%s)[%d]!)' % (term(r), ix)) if isinstance(r, Sym) else r[ix]
        return r
    def typ(s):
        if s.eat('['): s.need(']'); return '[]' + s.typ()
        n = s.next()[1]
        while s.eat('.'): n = s.next()[1]
        return n
    def elements(s, ty):
        s.need('{'); l = []
        while not s.eat('}'):
            if s.eat(';'): continue
            l.append(s.literal(ty) if s.peek() == '{' else s.expr()); s.eat(',')
        return l
    def literal(s, ty):
        s.need('{'); f = {}
        while not s.eat('}'):
            if s.eat(';'): continue
            key = s.next()[1]; s.need(':'); f[key] = s.expr(); s.eat(',')
        return Generator() if ty.endswith('Generator') else Struct(ty, f)
    def var(s, name):
        if name in ('true', 'false'): return name == 'true'
        if name == 'nil': return None
        base = name.split('.')[-1]
        if name in s.vars: return s.vars[name]
        if base in CONST: return CONST[base]
        if base in ITEM: return base
        if name == 'tokenizer.images': return Sym('(← images)')
        if name == 'tokenizer.tokenCounter': return Sym('(← counter)')
        if name == 'generator': return Generator()
        if name.startswith('config.Current.'):
            k = base
            if k in cfgstate: return cfgstate[k]
            if k == 'IgnoredMediaTypes': return ["gif", "mp3", "mp4", "pdf", "oga", "ogg", "ogv", "wav", "webm"]
        if name == 't': return 't'
        raise Skip('variable ' + name)
    def fresh(s): s.n += 1; return 'r%d' % s.n
    def call(s, name, args):
        base = name.split('.')[-1]
        if name == 'fmt.Sprintf':
            if any(isinstance(a, Sym) for a in args): raise Skip('Sprintf of a result')
            it = iter(args[1:])
            return re.sub(r'%[sd]', lambda m: str(next(it)), args[0])
        if name == 'strings.Split':
            return args[0].split(args[1])
        if name == 'len':
            return Sym('(%s).length' % args[0].e) if isinstance(args[0], Sym) else len(args[0])
        if base == 'NewMockWikipediaService': return Struct('Mock', {})
        if name == 'NewTokenizer': s.lines.append('fresh'); return Tokenizer()
        if base in ('NewTokenizerWithMockWikipediaService',):
            s.lines.append('fresh'); return Tokenizer()
        if base == 'NewHtmlGeneratorWithMockWikipediaService': return Generator()
        if base == 'setup':
            cfgstate['CommandTemplatePdfToPng'] = ''; cfgstate['CommandTemplateSvgToPng'] = ''; s.env(); return None
        if name in ('test.Prepare', 'test.CleanRun', 't.Run'): return None
        if base == 'getTokenMap': return Sym('TOKENMAP')
        if name in ('test.AssertEqual', 'test.AssertMapEqual'):
            a, b = args[1], args[2]; s.asserts += 1
            if isinstance(a, Sym) and not isinstance(b, Sym): a, b = b, a
            if isinstance(b, Sym) and b.e == 'TOKENMAP':
                s.lines.append('expectMap [%s]' % ', '.join('(%s, %s)' % (term(k), term(v)) for k, v in a.d.items()))
            else:
                x, y = term(a), term(b)
                if not isinstance(b, Sym): raise Skip('compares two known values')
                s.lines.append('expect (dump (%s)) (dump %s)' % (y, x))
            return None
        if name in ('test.AssertTrue', 'test.AssertFalse'):
            s.asserts += 1
            s.lines.append('expect (dump (%s)) (dump %s)' % (term(args[1]), 'true' if base == 'AssertTrue' else 'false')); return None
        if name == 'test.AssertEmptyString':
            s.asserts += 1; s.lines.append('expect (dump (%s)) (dump (s ""))' % term(args[1])); return None
        if name == 'test.AssertNil':
            s.asserts += 1
            if isinstance(args[1], Sym): s.lines.append('expect (dump (%s)) (dump false)' % term(args[1]))
            return None
        if name in ('generator.expandTableRow', 'generator.expandTableColumn'): name, args = 'expand', [None] + args
        if name == 'expand' or name == 'generator.expandMarker':
            r = s.fresh()
            if name == 'generator.expandMarker':
                s.lines.append('let %s ← pure (expandMarker %s)' % (r, term(args[0]))); return Sym(r)
            m = getattr(s, 'tokens', None)
            if m and any(isinstance(v, str) for v in m.d.values()): raise Skip('a text as token')
            ms = '[%s]' % ', '.join('(%s, %s)' % (term(k), term(v)) for k, v in m.d.items()) if m else '[]'
            if isinstance(args[1], str): e = 'expandString html %s fuel %s' % (ms, term(args[1]))
            elif isinstance(args[1], Struct) and args[1].n == 'ListItemToken': e = 'expandItem (expandString html %s fuel) %s' % (ms, item(args[1]))
            elif isinstance(args[1], Struct) and args[1].n == 'TableRowToken': e = 'expandRow (expandString html %s fuel) %s' % (ms, row(args[1]))
            elif isinstance(args[1], Struct) and args[1].n == 'TableColToken': e = 'expandCol (expandString html %s fuel) %s' % (ms, col(args[1]))
            else: e = 'expandToken html (expandString html %s fuel) %s' % (ms, term(args[1]))
            s.lines.append('let (%s, %se) ← call (liftE (%s))' % (r, r, e))
            return Ret([Sym(r), Sym(r + 'e')])
        if base in FN:
            tpl, n = FN[base]
            a = []
            for x in args:
                a.append('%d' % x if isinstance(x, int) and not isinstance(x, bool) else ('_' if isinstance(x, Tokenizer) else term(x)))
            r = s.fresh()
            if n == 'err':
                s.lines.append('let (%s, %se) ← call (%s)' % (r, r, tpl.format(*a)))
                return Ret([Sym(r), Sym(r + 'e')])
            s.lines.append('let %s ← call (%s)' % (r, tpl.format(*a)))
            if n == 1: return Sym(r)
            return Ret([Sym('%s%s' % (r, p)) for p in (['.1', '.2'] if n == 2 else ['.1', '.2.1', '.2.2'])])
        raise Skip('call ' + name)

tests, skipped, nassert = [], [], 0
for folder in ('parser', 'generator'):
    cfgstate.clear()
    for f in sorted(glob.glob('%s/src/%s/*_test.go' % (repo, folder))):
        src = open(f).read()
        for m in re.finditer(r'^func (Test\w+)\(t \*testing\.T\) (\{.*?^\})(?=\n*(?:func|//|\Z))', src, re.M | re.S):
            try:
                tt = Test(lex(m.group(2)), {}); tt.env(); tt.lines.append('fresh'); tt.block()
                if not tt.asserts: raise Skip('no assertion')
                tests.append((m.group(1), os.path.basename(f), tt.lines)); nassert += tt.asserts
            except Skip as e: skipped.append((m.group(1), os.path.basename(f), str(e)))
with open(out, 'w') as o:
    o.write(open(os.path.join(os.path.dirname(os.path.abspath(__file__)), 'UnitHarness.lean.txt')).read())
    for n, f, l in tests:
        o.write('\n/-- %s -/\ndef t_%s : T Unit := do\n' % (f, n) + ''.join('  %s\n' % x for x in l))
    o.write('\ndef main : IO Unit := do\n')
    for n, f, l in tests: o.write('  runTest "%s %s" t_%s\n' % (f, n, n))
print(len(tests), 'tests with', nassert, 'assertions;', len(skipped), 'not taken over:')
for x in skipped: print('  %s %s: %s' % (x[1], x[0], x[2]))
