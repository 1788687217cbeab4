"""Compares what the model paints for the documents of /repo/tests/reftests with the expected images and with each other."""
import re, struct, sys, zlib
OUT = '/tmp/victor-validation'

def png(path):
    b = open(path, 'rb').read()
    i, data = 8, b''
    while i < len(b):
        n, t = struct.unpack('>I4s', b[i:i + 8])
        if t == b'IHDR': w, h, depth, color = struct.unpack('>IIBB', b[i + 8:i + 18])
        if t == b'IDAT': data += b[i + 8:i + 8 + n]
        i += n + 12
    assert depth == 8
    k = {2: 3, 6: 4}[color]
    raw, rows, prev = zlib.decompress(data), [], bytes(w * k)
    for y in range(h):
        f, line = raw[y * (w * k + 1)], bytearray(raw[y * (w * k + 1) + 1:(y + 1) * (w * k + 1)])
        for x in range(w * k):
            a = line[x - k] if x >= k else 0
            u, c = prev[x], prev[x - k] if x >= k else 0
            if f == 1: p = a
            elif f == 2: p = u
            elif f == 3: p = (a + u) // 2
            elif f == 4:
                q = a + u - c
                p = min((abs(q - a), 0, a), (abs(q - u), 1, u), (abs(q - c), 2, c))[2]
            else: p = 0
            line[x] = (line[x] + p) % 256
        rows.append([tuple(line[x * k:(x + 1) * k]) for x in range(w)])
        prev = bytes(line)
    return w, h, rows

def painted(name):
    b = open(f'{OUT}/{name}.pdf', 'rb').read()
    i = b.index(b'0.75 0 0 -0.75')
    ops, color = [], (0, 0, 0)
    for line in b[i:b.index(b'endstream', i)].decode().split('\n'):
        t = line.split()
        if t[-1:] == ['rg']: color = tuple(round(float(v) * 255) for v in t[:3])
        if t[-1:] == ['re']: ops.append((color, tuple(float(v) for v in t[:4])))
        if t[-1:] == ['Tm']: ops.append((color, 'text', t[4], t[5]))
    return ops

def pixels(w, h, ops):
    """Rectangles are rounded to pixels; the background is transparent."""
    rows = [[(0, 0, 0, 0)] * w for _ in range(h)]
    for color, rect in (op for op in ops if len(op) == 2):
        x, y, rw, rh = rect
        for j in range(max(0, round(y)), min(h, round(y + rh))):
            for k in range(max(0, round(x)), min(w, round(x + rw))): rows[j][k] = color + (255,)
    return rows

for name in ('blocks', 'text', 'alice'):
    w, h, image = png(f'/repo/tests/reftests/{name}.png')
    ops = painted(name)
    ours = pixels(w, h, ops)
    text = any(len(op) > 2 for op in ops)
    ink = (0, 0, 0, 255)
    wrong = sum(1 for y in range(h) for x in range(w) if ours[y][x] != image[y][x] and not (text and image[y][x] == ink))
    print(f'{name}.png: {w * h} pixels{", but for the ink of glyphs" if text else ""}: {wrong} differ')
for a, b in [('abspos', 'abspos-ref'), ('005a', '005-ref'), ('004a', '004-ref'), ('002', '002-ref')]:
    print(a, b, 'look the same' if pixels(600, 800, painted(a)) == pixels(600, 800, painted(b)) else 'DIFFERENT')
