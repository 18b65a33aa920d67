#!/usr/bin/env python3
"""Translates functions of the C sources in the syntax of lean/Verif/C/Syntax.lean, one constructor for each construct of C.

  tools/c2lean.py          writes lean/Verif/C/Src*.lean from /repo/tommyds
  tools/c2lean.py --check  compares them with what is written, without changes

The configuration of the preprocessor is the one of GCC, in C. Macros are expanded, except TOMMY_SIZE_BIT, which is `sizeBit` of the model, and
those whose value depends on it, which become a definition with the two values."""
import re, sys, os

REPO = "/repo/tommyds"
OUT = os.path.join(os.path.dirname(os.path.abspath(__file__)), "..", "lean", "Verif", "C")

# ------------------------------------------------------------------ preprocessor
def strip_comments(s):
    out = []; i = 0
    while i < len(s):
        if s.startswith("/*", i):
            j = s.index("*/", i) + 2
            out.append(re.sub(r"[^\n]", " ", s[i:j])); i = j
        elif s.startswith("//", i):
            j = s.index("\n", i); out.append(" " * (j - i)); i = j
        else:
            out.append(s[i]); i += 1
    return "".join(out)

DEFINED = {"__GNUC__", "TOMMY_SIZE_BIT"}

def preprocess(name, word, macros, included):
    """Lines of the file (line number, text), after #if; the macros are added to `macros`."""
    if name in included: return []
    included.add(name)
    lines = strip_comments(open(os.path.join(REPO, name)).read()).split("\n")
    res = []; stack = []  # (active now, already taken)
    i = 0
    while i < len(lines):
        n, l = i + 1, lines[i]
        while l.rstrip().endswith("\\"):
            i += 1
            l = l.rstrip()[:-1] + " " + lines[i]
        i += 1
        m = re.match(r"\s*#\s*(\w+)\s*(.*)", l)
        active = all(a for a, _ in stack)
        if not m:
            if active: res.append((n, l))
            continue
        d, arg = m.group(1), m.group(2).strip()
        def cond(x):
            x = re.sub(r"defined\s*\(\s*(\w+)\s*\)|defined\s+(\w+)", lambda m: str((m.group(1) or m.group(2)) in DEFINED or (m.group(1) or m.group(2)) in macros), x)
            x = x.replace("SIZE_MAX == UINT64_MAX", str(word == 64)).replace("SIZE_MAX == UINT32_MAX", str(word == 32))
            x = x.replace("TOMMY_SIZE_BIT", str(word)).replace("__STDC_VERSION__", "199901").replace("199901L", "199901")
            x = x.replace("&&", " and ").replace("||", " or ").replace("!", " not ").replace(" not =", "!=")
            return bool(eval(x, {"__builtins__": {}}, {}))
        if d == "ifdef": b = active and (arg in DEFINED or arg in macros); stack.append((b, b))
        elif d == "ifndef": b = not (arg in DEFINED or arg in macros); stack.append((b, b))
        elif d == "if":
            b = active and cond(arg); stack.append((b, b))
        elif d == "elif":
            _, t = stack.pop()
            b = (not t) and all(a for a, _ in stack) and cond(arg); stack.append((b, t or b))
        elif d == "else":
            _, t = stack.pop(); stack.append((not t, True))
        elif d == "endif": stack.pop()
        elif active and d == "define":
            m = re.match(r"(\w+)(\(([^)]*)\))?\s*(.*)", arg)
            if m.group(1) != "TOMMY_SIZE_BIT":
                macros[m.group(1)] = (None if m.group(2) is None else [x.strip() for x in m.group(3).split(",")], m.group(4))
        elif active and d == "include":
            m = re.match(r'"(\w+\.h)"', arg)
            if m: preprocess_into(m.group(1), word, macros, included)
        elif active and d == "error": raise Exception(arg)
    FILES[(name, word)] = res
    return res

FILES = {}
def preprocess_into(name, word, macros, included):
    preprocess(name, word, macros, included)

TOK = re.compile(r"\s+|(?P<num>0[xX][0-9a-fA-F]+[uUlL]*|\d+[uUlL]*)|(?P<id>[A-Za-z_]\w*)|(?P<op>->|\+\+|--|<<=|>>=|<<|>>|<=|>=|==|!=|&&|\|\||[-+*/%&|^]=|[-+*/%&|^~!<>=?:;,.(){}\[\]])")
def tokenize(lines):
    toks = []
    for n, l in lines:
        p = 0
        while p < len(l):
            m = TOK.match(l, p)
            if not m: raise Exception("token %d %r" % (n, l[p:]))
            p = m.end()
            if m.lastgroup: toks.append((m.lastgroup, m.group(m.lastgroup), n))
    return toks

KEEP = {"tommy_ilog2", "tommy_ctz", "tommy_roundup_pow2"}   # macros with a different value in the two builds
CASTS = {"tommy_cast"}
def expand(toks, macros, hide=()):
    out = []; i = 0
    while i < len(toks):
        k, v, n = toks[i]
        if k == "id" and v in macros and v not in hide and v not in KEEP:
            params, body = macros[v]
            b = tokenize([(n, body)])
            if params is None:
                out += expand(b, macros, set(hide) | {v}); i += 1; continue
            if i + 1 < len(toks) and toks[i + 1][1] == "(":
                depth = 0; j = i + 1; args = [[]]
                while True:
                    t = toks[j]
                    if t[1] == "(":
                        depth += 1
                        if depth > 1: args[-1].append(t)
                    elif t[1] == ")":
                        depth -= 1
                        if depth == 0: break
                        args[-1].append(t)
                    elif t[1] == "," and depth == 1: args.append([])
                    else: args[-1].append(t)
                    j += 1
                env = dict(zip(params, args))
                r = []
                for t in b:
                    if t[0] == "id" and t[1] in env: r += env[t[1]]
                    else: r.append(t)
                out += expand([(a, x, n) for a, x, _ in r], macros, set(hide) | {v}); i = j + 1; continue
        out.append(toks[i]); i += 1
    return out

# ------------------------------------------------------------------ parser
BASE = {"uint32_t": ".u32", "uint64_t": ".u64", "size_t": ".usize", "uintptr_t": ".usize", "ptrdiff_t": ".ssize", "int": ".s32", "void": ".void",
        "unsigned": ".u32", "char": ".u8", "int32_t": ".s32", "int64_t": ".ssize"}
# int32_t and int64_t are used only for tommy_ssize_t, and uint32_t or uint64_t for tommy_size_t
FIXED = {"tommy_size_t": ".usize", "tommy_ssize_t": ".ssize"}

class P:
    def __init__(self, toks, types, structs):
        self.t = toks; self.i = 0; self.types = types; self.structs = structs; self.vars = {}; self.taken = set()
    def peek(self, k=0): return self.t[self.i + k][1] if self.i + k < len(self.t) else None
    def kind(self, k=0): return self.t[self.i + k][0] if self.i + k < len(self.t) else None
    def line(self): return self.t[min(self.i, len(self.t) - 1)][2]
    def next(self): self.i += 1; return self.t[self.i - 1][1]
    def eat(self, x):
        if self.peek() != x: raise Exception("line %d: expected %s found %s" % (self.line(), x, self.peek()))
        self.i += 1
    def opt(self, x):
        if self.peek() == x: self.i += 1; return True
        return False
    # types
    QUAL = {"const", "static", "__inline", "inline", "restrict", "__restrict", "extern"}
    def is_type(self, k=0):
        return self.peek(k) in self.QUAL or self.peek(k) in self.types or self.peek(k) in BASE or self.peek(k) in FIXED or self.peek(k) == "struct"
    def base(self):
        t = None
        while True:
            x = self.peek()
            if x in self.QUAL: self.next()
            elif x == "struct":
                self.next(); n = self.next(); t = '.struct "%s"' % n
                if self.peek() == "{": self.structs[n] = self.fields()
            elif t is None and x in FIXED: t = FIXED[self.next()]
            elif t is None and x in self.types: t = self.types[self.next()]
            elif x in BASE:
                if t == ".u32" and x in ("char",): t = ".u8"; self.next()
                elif t is None: t = BASE[self.next()]
                elif x == "int": self.next()
                else: break
            else: break
        if t is None: raise Exception("line %d: type %s" % (self.line(), self.peek()))
        return t
    def stars(self, t):
        while True:
            if self.opt("*"): t = ".ptr (%s)" % t if " " in t else ".ptr " + t
            elif self.peek() in self.QUAL: self.next()
            else: return t
    def fields(self):
        self.eat("{"); fs = []
        while not self.opt("}"):
            b = self.base()
            while True:
                t = self.stars(b); n = self.next()
                t = self.dims(t)
                fs.append((n, t))
                if not self.opt(","): break
            self.eat(";")
        return fs
    def dims(self, t):
        ds = []
        while self.opt("["):
            ds.append(self.const()); self.eat("]")
        for d in reversed(ds): t = ".arr %s %s" % (par(t), d)
        return t
    def const(self):
        # a constant, with TOMMY_SIZE_BIT
        s = []
        while self.peek() != "]": s.append(self.next())
        x = " ".join(s)
        if "TOMMY_SIZE_BIT" in x:
            y = x.replace("TOMMY_SIZE_BIT", "sizeBit")
            return y if " " not in y else "(%s)" % y
        return str(eval(x, {"__builtins__": {}}, {}))
    # expressions
    def expr(self): return self.assign()
    def assign(self):
        l = self.ternary()
        if self.peek() == "=": self.next(); return ".assign %s %s" % (par(l), par(self.assign()))
        m = {"+=": "add", "-=": "sub", "*=": "mul", "/=": "div", "%=": "mod", "&=": "and", "|=": "or", "^=": "xor", "<<=": "shl", ">>=": "shr"}
        if self.peek() in m:
            o = m[self.next()]
            # p += i is p = p + i, and p + i is &p[i] (ISO 6.5.2.1)
            if o == "add" and self.is_ptr(l): return ".assign %s (.addr (.index %s %s))" % (par(l), par(l), par(self.assign()))
            return ".assignOp .%s %s %s" % (o, par(l), par(self.assign()))
        return l
    def is_ptr(self, e, t=".ptr"):
        m = re.fullmatch(r'\.var "(\w+)"', e)
        return bool(m) and self.vars.get(m.group(1), "").startswith(t)
    def ternary(self):
        c = self.binary(0)
        if self.opt("?"):
            a = self.expr(); self.eat(":"); b = self.ternary()
            return ".cond %s %s %s" % (par(c), par(a), par(b))
        return c
    LEVELS = [{"||": None}, {"&&": None}, {"|": "or"}, {"^": "xor"}, {"&": "and"}, {"==": "eq", "!=": "ne"},
              {"<": "lt", ">": "gt", "<=": "le", ">=": "ge"}, {"<<": "shl", ">>": "shr"}, {"+": "add", "-": "sub"}, {"*": "mul", "/": "div", "%": "mod"}]
    def binary(self, k):
        if k == len(self.LEVELS): return self.unary()
        a = self.binary(k + 1)
        while self.peek() in self.LEVELS[k]:
            o = self.next(); b = self.binary(k + 1)
            if o == "||": a = ".lor %s %s" % (par(a), par(b))
            elif o == "&&": a = ".land %s %s" % (par(a), par(b))
            elif o == "+" and self.is_ptr(a): a = ".addr (.index %s %s)" % (par(a), par(b))
            # p - i is &p[-i]; the negation of an unsigned i is modular, as the address is, if the elements are bytes
            elif o == "-" and self.is_ptr(a, ".ptr .u8"): a = ".addr (.index %s (.neg %s))" % (par(a), par(b))
            else: a = ".bin .%s %s %s" % (self.LEVELS[k][o], par(a), par(b))
        return a
    def unary(self):
        x = self.peek()
        if x == "&" and self.peek(1) in self.taken and self.peek(2) not in ("->", ".", "["):
            self.next(); return '.var "&%s"' % self.next()
        if x == "&": self.next(); return ".addr " + par(self.unary())
        if x == "*": self.next(); return ".deref " + par(self.unary())
        if x == "!": self.next(); return ".lnot " + par(self.unary())
        if x == "-": self.next(); return ".neg " + par(self.unary())
        if x == "~": self.next(); return ".bnot " + par(self.unary())
        if x == "++": self.next(); return ".assignOp .add %s (.num 1)" % par(self.unary())
        if x == "--": self.next(); return ".assignOp .sub %s (.num 1)" % par(self.unary())
        if x == "sizeof":
            self.next(); self.eat("(")
            if self.is_type():
                t = self.stars(self.base()); self.eat(")"); return ".sizeT " + par(t)
            e = self.expr(); self.eat(")"); return ".sizeE " + par(e)
        if x == "(" and self.is_type(1):
            self.next(); t = self.stars(self.base()); self.eat(")")
            return ".cast %s %s" % (par(t), par(self.unary()))
        return self.postfix()
    def postfix(self):
        k, x = self.kind(), self.peek()
        if k == "num":
            self.next()
            u = x.lower().endswith("u"); v = int(x.rstrip("uUlL"), 0)
            e = ".num %d" % v
            # ISO 6.4.4.1; a decimal constant without u is never unsigned
            if u or v >= 2 ** 31:
                if v >= 2 ** 32 or not (u or x.lower().startswith("0x")): raise Exception("line %d: constant %s" % (self.line(), x))
                e = ".lit .u32 %d" % v
        elif x == "(": self.next(); e = self.expr(); self.eat(")")
        elif k == "id":
            self.next()
            if x in CASTS:
                self.eat("("); t = self.stars(self.base()); self.eat(","); e = self.expr(); self.eat(")")
            elif self.opt("("):
                args = []
                if not self.opt(")"):
                    while True:
                        args.append(self.assign())
                        if not self.opt(","): break
                    self.eat(")")
                a = ".nil"
                for y in reversed(args): a = ".cons %s %s" % (par(y), par(a))
                e = '.call %s %s' % ("m_" + x if x in KEEP else '"%s"' % x, par(a))
            elif x == "TOMMY_SIZE_BIT": e = ".num sizeBit"
            elif x in self.taken: e = '.deref (.var "&%s")' % x
            else: e = '.var "%s"' % x
        else: raise Exception("line %d: %s" % (self.line(), x))
        while True:
            if self.opt("["): i = self.expr(); self.eat("]"); e = ".index %s %s" % (par(e), par(i))
            elif self.opt("->"): e = '.arrow %s "%s"' % (par(e), self.next())
            elif self.opt("."): e = '.dot %s "%s"' % (par(e), self.next())
            else: return e
    # statements: a list of lines
    def stmt(self):
        x = self.peek()
        if x == "{":
            return (".block", self.block())
        if x == "if":
            self.next(); self.eat("("); c = self.expr(); self.eat(")")
            a = self.stmt()
            b = self.stmt() if self.opt("else") else ".skip"
            return (".ite", c, a, b)
        if x == "while":
            self.next(); self.eat("("); c = self.expr(); self.eat(")")
            return (".while", c, self.stmt())
        if x == "for":
            self.next(); self.eat("("); i = self.expr(); self.eat(";"); c = self.expr(); self.eat(";"); s = self.expr(); self.eat(")")
            return (".for", i, c, s, self.stmt())
        if x == "break": self.next(); self.eat(";"); return ".break"
        if x == "return":
            self.next()
            if self.opt(";"): return ".ret"
            e = self.expr(); self.eat(";"); return ".retE " + par(e)
        if x == "do":
            self.next(); a = self.stmt(); self.eat("while"); self.eat("("); c = self.expr(); self.eat(")"); self.eat(";")
            return (".doWhile", a, c)
        if x == "switch":
            self.next(); self.eat("("); c = self.expr(); self.eat(")"); self.eat("{"); cs = []
            while not self.opt("}"):
                if self.opt("case"):
                    n = self.next(); self.eat(":"); cs.append((n, []))
                else: cs[-1][1].append(self.stmt())
            return (".switch", c, cs)
        if x in ("goto", "continue", "default"): raise Exception("line %d: %s" % (self.line(), x))
        if self.is_type():
            b = self.base(); rs = []
            while True:
                t = self.stars(b); n = self.next(); t = self.dims(t); self.vars[n] = t
                if n in self.taken:
                    rs.append((".scope", n, t))
                    if self.opt("="): rs.append('.expr (.assign (.deref (.var "&%s")) %s)' % (n, par(self.assign())))
                    if not self.opt(","): break
                    continue
                if self.peek() == "=" and self.peek(1) == "{":
                    # an array: each element is initialised as in an assignment (ISO 6.7.9)
                    self.next(); self.next(); rs.append('.decl %s "%s"' % (par(t), n)); i = 0
                    while True:
                        rs.append('.expr (.assign (.index (.var "%s") (.num %d)) %s)' % (n, i, par(self.assign()))); i += 1
                        if not self.opt(","): break
                    self.eat("}")
                    if t.split(" ")[-1] != str(i): raise Exception("line %d: initialiser" % self.line())
                elif self.opt("="): rs.append('.declInit %s "%s" %s' % (par(t), n, par(self.assign())))
                else: rs.append('.decl %s "%s"' % (par(t), n))
                if not self.opt(","): break
            self.eat(";")
            return rs[0] if len(rs) == 1 and isinstance(rs[0], str) else (".decls", rs)
        e = self.expr(); self.eat(";"); return ".expr " + par(e)
    def block(self):
        self.eat("{"); l = []
        while not self.opt("}"):
            s = self.stmt()
            if s[0] == ".decls": l += s[1]
            else: l.append(s)
        # the variables whose address is taken: until the end of the block
        for i in reversed(range(len(l))):
            if l[i][0] == ".scope": l[i:] = [l[i] + (l[i + 1:],)]
        return l
    def address_taken(self):
        # the names x in &x, from the start of a body
        r = set(); d = 0; i = self.i
        while True:
            x = self.t[i][1]; d += {"{": 1, "}": -1}.get(x, 0)
            if x == "&" and self.t[i - 1][1] in ("(", ",", "=", "return") and self.t[i + 1][0] == "id" and self.t[i + 2][1] not in ("->", ".", "["): r.add(self.t[i + 1][1])
            if d == 0: return r
            i += 1

def par(x): return x if re.fullmatch(r'\.\w+|"[^"]*"|\w+', x) else "(%s)" % x

def show(s, ind):
    pad = " " * ind
    if isinstance(s, str): return pad + s
    k = s[0]
    if k == ".block": return pad + ".block " + body(s[1], ind)
    if k == ".scope": return pad + '.scope "&%s" %s %s' % (s[1], par(s[2]), body(s[3], ind))
    if k == ".ite":
        return pad + ".ite %s\n%s\n%s" % (par(s[1]), parl(s[2], ind + 2), parl(s[3], ind + 2))
    if k == ".while": return pad + ".while %s\n%s" % (par(s[1]), parl(s[2], ind + 2))
    if k == ".doWhile": return pad + ".doWhile\n%s\n%s" % (parl(s[1], ind + 2), " " * (ind + 2) + par(s[2]))
    if k == ".switch":
        return pad + ".switch %s (.list [\n%s])" % (par(s[1]), ",\n".join(pad + "  .case %s %s" % (n, body(l, ind + 2)) for n, l in s[2]))
    if k == ".for": return pad + ".for %s %s %s\n%s" % (par(s[1]), par(s[2]), par(s[3]), parl(s[4], ind + 2))
def parl(s, ind):
    t = show(s, ind)
    if isinstance(s, str) and " " not in s: return t
    return " " * ind + "(" + t.lstrip() + ")"
def body(l, ind):
    if not l: return ".skip"
    return "(.list [\n" + ",\n".join(show(x, ind + 2) for x in l) + "])"

def toplevel(name, word, types, structs, macros):
    """Functions of a file: name, line of start and end, (ret, params, body)."""
    toks = expand(tokenize(FILES[(name, word)]), macros)
    p = P(toks, types, structs); funs = {}
    while p.peek() is not None:
        if p.opt(";"): continue
        if p.opt("typedef"):
            t = p.stars(p.base()); n = p.next()
            if p.peek() == "(":
                while p.peek() != ";": p.next()
                t = ".fn"
            else: t = p.dims(t)
            p.eat(";"); types[n] = t; continue
        l0 = p.line(); p.base_start = p.i
        r = p.stars(p.base())
        if p.opt(";"): continue
        n = p.next()
        if p.peek() != "(":
            while p.peek() != ";": p.next()
            continue
        p.eat("("); ps = []
        if p.peek() == "void" and p.peek(1) == ")": p.next()
        if not p.opt(")"):
            while True:
                t = p.stars(p.base())
                x = p.next() if p.kind() == "id" else ""
                ps.append((x, t))
                if not p.opt(","): break
            p.eat(")")
        if p.opt(";"): continue
        i0 = p.i; p.vars = dict(ps); p.taken = p.address_taken() - set(p.vars)
        try: b = p.block()
        except Exception as e:
            # not in the subset
            p.i = i0; d = 0
            while True:
                x = p.next(); d += {"{": 1, "}": -1}.get(x, 0)
                if d == 0: break
            funs[n] = (l0, p.t[p.i - 1][2], str(e)); continue
        funs[n] = (l0, p.t[p.i - 1][2], (r, ps, b))
    return funs

def emit_fun(f):
    r, ps, b = f
    return "{ ret := %s\n    params := [%s]\n    body := %s }" % (r, ", ".join('("%s", %s)' % x for x in ps), body(b, 4))

def load(word, files):
    macros = {}; inc = set(); types = {}; structs = {}; funs = {}
    for f in files: preprocess(f, word, macros, inc)
    for f in files: funs[f] = toplevel(f, word, types, structs, macros)
    return funs, structs, macros

# Lean file, C files, functions (None: all of the file)
FILESETS = [
    ("SrcTypes", ["tommytypes.h"], None),
    ("SrcList", ["tommylist.h"], None),
    ("SrcHashtbl", ["tommyhashtbl.h", "tommyhashtbl.c"], None),
    ("SrcHashdyn", ["tommyhashdyn.h", "tommyhashdyn.c"], None),
    ("SrcHashlin", ["tommyhashlin.h", "tommyhashlin.c"], None),
    ("SrcHash", ["tommyhash.h", "tommyhash.c"], None),
    ("SrcTree", ["tommytree.h", "tommytree.c"], None),
    ("SrcArray", ["tommyarray.h", "tommyarray.c", "tommyarrayof.h", "tommyarrayof.c", "tommyarrayblk.h", "tommyarrayblk.c", "tommyarrayblkof.h", "tommyarrayblkof.c"], None),
    ("SrcAlloc", ["tommyalloc.h", "tommyalloc.c"], None),
]
ORDER = ["tommytypes.h", "tommylist.h", "tommyhashtbl.h", "tommyhashtbl.c", "tommyhashdyn.h", "tommyhashdyn.c", "tommyhashlin.h", "tommyhashlin.c", "tommyhash.h", "tommyhash.c", "tommytree.h", "tommytree.c",
    "tommyarray.h", "tommyarray.c", "tommyarrayof.h", "tommyarrayof.c", "tommyarrayblk.h", "tommyarrayblk.c", "tommyarrayblkof.h", "tommyarrayblkof.c",
    "tommyalloc.h", "tommyalloc.c"]

def source(name, a, b):
    ls = open(os.path.join(REPO, name)).read().split("\n")[a - 1:b]
    s = strip_comments("\n".join(ls))
    return "\n".join("    " + l.rstrip().replace("\t", "  ") for l in s.split("\n") if l.strip())

def main():
    g64, s64, m64 = load(64, ORDER); g32, s32, m32 = load(32, ORDER)
    assert s64 == s32
    DEFINED.add("__x86_64__"); gx86, sx86, _ = load(64, ORDER); DEFINED.remove("__x86_64__")
    assert s64 == sx86
    check = "--check" in sys.argv; ok = True
    sdone = set(); skipped = []
    where = {}
    for name in ORDER:
        for m in re.finditer(r"struct (\w+) \{", open(os.path.join(REPO, name)).read()): where[m.group(1)] = name
    for lean, cs, _ in FILESETS:
        o = ["import Verif.C.Sem" if lean == "SrcTypes" else "import Verif.C.SrcTypes", "/-", "  Written by tools/c2lean.py from " + ", ".join(cs) + ". Not to be changed.", "-/",
             "set_option autoImplicit false", "namespace Tommy.C.Src", "", "variable [a : Arch]", ""]
        for s, fs in s64.items():
            if where.get(s) in cs:
                src = open(os.path.join(REPO, where[s])).read()
                i = src.index("struct %s {" % s); l = src[:i].count("\n") + 1; e = l + src[i:src.index("}", i)].count("\n")
                o += ["/-- %s:%d-%d -/" % (where[s], l, e), "def s_%s : List (String × CTy) := [" % s, ",\n".join('  ("%s", %s)' % x for x in fs) + "]", ""]
        if lean == "SrcTypes":
            for k in sorted(KEEP):
                o += ["/-- tommytypes.h: the macro `%s` in the two builds. -/" % k, "def m_%s : String := match a with" % k,
                      '  | .w32 => "%s"' % m32[k][1], '  | .w64 => "%s"' % m64[k][1], ""]
        names = []
        for c in cs:
            for n, (a, b, f) in g64[c].items():
                if isinstance(f, str): skipped.append((n, f)); continue
                o += ["/-- %s:%d-%d\n```\n%s\n```\n-/" % (c, a, b, source(c, a, b))]
                if n in g32[c]: assert g32[c][n][2] == f, n
                o += ["def f_%s : Fun :=\n  %s" % (n, emit_fun(f)), ""]; names.append(n)
                if gx86[c][n][2] != f: o += ["/-- The same in x86 and x86_64. -/", "def f_%s_x86 : Fun :=\n  %s" % (n, emit_fun(gx86[c][n][2])), ""]
        o += ["/-- The functions of the file. -/", "def funs%s : List (String × Fun) := [" % lean[3:], ",\n".join('  ("%s", f_%s)' % (n, n) for n in names) + "]", ""]
        o += ["/-- The structs of the file. -/", "def structs%s : List (String × List (String × CTy)) := [" % lean[3:],
              ",\n".join('  ("%s", s_%s)' % (n, n) for n in s64 if where.get(n) in cs) + "]", "", "end Tommy.C.Src", ""]
        t = "\n".join(o); q = os.path.join(OUT, lean + ".lean")
        if check:
            if not os.path.exists(q) or open(q).read() != t: print("different", lean); ok = False
        else: open(q, "w").write(t)
    for n, e in skipped: print("not translated:", n, e)
    sys.exit(0 if ok else 1)

if __name__ == "__main__":
    main()
