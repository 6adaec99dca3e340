"""Copy the tables of graphics/GFXFonts/FreeSans15pt7b.h into lean/Verif/Font/FreeSansData.lean."""
import os, re
root = os.path.dirname(os.path.dirname(os.path.abspath(__file__)))
t = open('/repo/graphics/GFXFonts/FreeSans15pt7b.h').read()
bm = t[t.index('Bitmaps[] = {'):t.index('};')]
by = [int(x, 16) for x in re.findall(r'0x([0-9A-Fa-f]{2})\b', bm)]
gl = t[t.index('Glyphs[] = {'):]
gs = [tuple(map(int, g)) for g in re.findall(
    r'\{\s*(\d+), \{\s*(\d+),\s*(\d+) \},\s*(\d+), \{\s*(-?\d+),\s*(-?\d+) \} \}', gl)]
lines = t.split('\n')
def line(s): return [i + 1 for i, l in enumerate(lines) if s in l][0]
b0, b1, g0, f0 = line('Bitmaps[]'), line('};'), line('Glyphs[]'), line('const GFXfont')
o = 'import Verif.Font.Spec\n/-!\n# The shipped font, `graphics/GFXFonts/FreeSans15pt7b.h`\n\n' \
    'The tables are copied from the header by `tools/gen_freesans.py`.\n-/\nnamespace Verif.Font\n\n'
o += f'/-- FreeSans15pt7b.h:{b0}-{b1} `FreeSans15pt7bBitmaps`. -/\ndef freeSansBytes : List Nat := [\n'
for i in range(0, len(by), 24):
    o += '  ' + ', '.join(str(x) for x in by[i:i + 24]) + (',' if i + 24 < len(by) else ']') + '\n'
o += f'\n/-- FreeSans15pt7b.h:{g0}-{g0 + len(gs)} `FreeSans15pt7bGlyphs`. -/\ndef freeSansGlyphs : List Glyph := [\n'
def s8(x): return str(x) if x >= 0 else f'(-{-x})'
o += ',\n'.join(f'  ⟨{g[0]}, {g[1]}, {g[2]}, {g[3]}, {s8(g[4])}, {s8(g[5])}⟩' for g in gs) + ']\n'
o += f'\n/-- FreeSans15pt7b.h:{f0}-{f0 + 3} `FreeSans15pt7b`. -/\n' \
     'def freeSans : Font := ⟨freeSansBytes.map (BitVec.ofNat 8), freeSansGlyphs, 0x20, 0x7E⟩\n\nend Verif.Font\n'
open(os.path.join(root, 'lean/Verif/Font/FreeSansData.lean'), 'w').write(o)
