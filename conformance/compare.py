"""Compares the expected HTML with that of the model. Pictures of formulas are left out. `<<<n>>>` in the output of the model is
a template without known answer: any text may stand there. Usage: compare.py <expected> <model>"""
import re, sys, difflib

def lines(path):
    text = open(path, encoding='utf-8').read()
    return re.sub(r'src="./images/[0-9a-f]{40}\.png" style="[^"]*"', 'FORMULA', text).split('\n')

a, b = lines(sys.argv[1]), lines(sys.argv[2])
unknown = []
if len(a) == len(b):
    for i, (x, y) in enumerate(zip(a, b)):
        if x != y and re.fullmatch('.*'.join(re.escape(p) for p in re.split('<<<[0-9]+>>>', y)), x, re.S):
            unknown.append(i + 1)
            b[i] = x
d = list(difflib.unified_diff(a, b, 'expected', 'model', n=0, lineterm=''))
print(len(a), 'lines,', len(d), 'lines of differences;', len(unknown), 'lines with templates without known answer')
print('\n'.join(x[:400] for x in d[:60]))
