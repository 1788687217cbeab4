"""Reads the break opportunities that xi_unicode gave for alice.txt off the segments in alice.pdf (they are a parameter of the model)."""
import re, sys
pdf = open('/repo/tests/alice.pdf', 'rb').read()
text = open('/repo/tests/alice.txt', encoding='utf8').read()
pos, breaks = 0, []
for page in re.finditer(rb'stream\r?\n(0\.75 0 0 -0\.75 0 0 cm.*?)\r?\nendstream', pdf, re.S):
    for tj in re.findall(rb'<([0-9A-F]*)> Tj', page.group(1)):
        pos += len(tj) // 4
        hard = pos == len(text) or text[pos] == '\n'
        if pos < len(text) and text[pos] == '\n':
            pos += 1
        breaks.append((pos, hard or pos == len(text)))
assert pos == len(text), (pos, len(text))
print('\n'.join(f'{p} {int(h)}' for p, h in breaks))
